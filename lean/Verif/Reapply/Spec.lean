import Verif.Reapply.Model
/-!
# C28: specification
-/
namespace Verif.Reapply

variable {Env : Type}

/-- The rule's explicit dependencies are not those of the last application, or one of them is newer. -/
def ExplicitChanged (w : World Env) (n : Node Env) : Prop :=
  (∃ a, ¬ (a ∈ w.explicit ↔ a ∈ n.oldExplicit)) ∨ n.explicitLost = true ∨
  (n.considers = true ∧ ∃ a ∈ w.explicit, n.lastTime < w.time a)

/-- An input is newer than the last application, and the rule may read inputs. -/
def Newer (w : World Env) (n : Node Env) (a : Art) : Prop := n.considers = true ∧ n.lastTime < w.time a

/-- Since the project was resolved again it has not been checked what the script read when it was run for the input,
    and that has changed. -/
def ScriptChanged (w : World Env) (n : Node Env) (a : Art) : Prop :=
  ∃ o ∈ n.outputs, a ∈ o.trafo.inputs ∧ o.trafo.tracked = true ∧ ∃ e, o.trafo.basis = some e ∧ w.differs e w.env = true

/-- The rule must be applied (again) to the input. -/
def Pending (w : World Env) (n : Node Env) (a : Art) : Prop :=
  a ∉ n.oldInputs ∨ ExplicitChanged w n ∨ Newer w n a ∨ ScriptChanged w n a

/-- An input of the last application is gone. -/
def Gone (w : World Env) (n : Node Env) : Prop := n.inputLost = true ∨ ∃ a ∈ n.oldInputs, a ∉ w.inputs

/-- The node has an output at the path, made from the one input by the commands. -/
def Has (n : Node Env) (a : Art) (p : Path) (c : List Nat) : Prop :=
  ∃ o ∈ n.outputs, o.path = p ∧ o.trafo.inputs = [a] ∧ o.trafo.commands = c

/-- No input is an explicit or scanned dependency of an output that the rule makes from another one. -/
def Separate (w : World Env) (n : Node Env) : Prop :=
  ∀ o ∈ n.outputs, ∀ a, (a ∈ w.inputs ∨ a ∈ n.oldInputs) → (a ∈ o.children ∨ a ∈ o.scanned) → a ∈ o.trafo.inputs

end Verif.Reapply
