import Verif.UpToDate.Model
/-!
# What "up to date" means, and which histories a build can have

These definitions do not use the functions of the model, only its data.
-/
namespace Verif.UpToDate

/-- The output has a valid time that is not older than any of its inputs, and none of the files
it depends on is missing or newer. -/
def Fresh (g : Graph) (ts : Art → Nat) (depTs : FileDep → Nat) (a : Art) : Prop :=
  ts a ≠ 0 ∧ (∀ c ∈ g.children a, ts c ≤ ts a) ∧
    ∀ d ∈ g.fileDeps a, depTs d ≠ 0 ∧ depTs d ≤ ts a

/-- The time of an output the check goes by: normally the one qbs has recorded, with
`forceTimestampCheck` the one on the disk. -/
def effTs (g : Graph) (o : Opts) (disk : Art → Nat) (st : St) (t : Trafo) (a : Art) : Nat :=
  if o.force = true ∧ a ∈ g.outputs t then disk a else st.ts a

/-- Every artifact is the output of at most one transformer, every transformer has outputs, and
no output of a transformer is an input of an output of the same transformer. -/
structure WF (g : Graph) : Prop where
  unique : ∀ t t' a, a ∈ g.outputs t → a ∈ g.outputs t' → t = t'
  nonempty : ∀ t ∈ g.transformers, g.outputs t ≠ []
  known : ∀ t, g.outputs t ≠ [] → t ∈ g.transformers
  noSelf : ∀ t a c, a ∈ g.outputs t → c ∈ g.children a → c ∉ g.outputs t

/-- `a` is a source file: no transformer produces it. -/
def IsSource (g : Graph) (a : Art) : Prop := ∀ t, a ∉ g.outputs t

/-- Every transformer without an `alwaysUpdated` output whose job has just finished has written
at least one output: it exists and is not older than its inputs. -/
def Wrote (g : Graph) (st : St) (t : Trafo) (disk : Art → Nat) : Prop :=
  (∃ a ∈ g.outputs t, g.alwaysUpdated a = true) ∨
    ∃ a ∈ g.outputs t, Fresh g (fun x => if x = a then disk a else st.ts x) st.depTs a

/-- Events the executor can produce in a state (C14, C16): a transformer is looked at once, when
all transformers producing its inputs are done; jobs finish only if they were started. The clock
does not run backwards (`clock` is the largest time seen so far) and no output carries a time in
the future; the commands do write their outputs (`Wrote`). -/
def EvOk (g : Graph) (st : St) (clock : Nat) : Ev → Prop
  | .start t _ => t ∈ g.transformers ∧ st.status t = .pending ∧
      ∀ a ∈ g.outputs t, ∀ c ∈ g.children a, ∀ t', c ∈ g.outputs t' → st.status t' = .done
  | .done t now disk => st.status t = .running ∧ clock ≤ now ∧
      (∀ a ∈ g.outputs t, disk a ≤ now) ∧ Wrote g st t disk

/-- The clock after an event. -/
def clockAfter (clock : Nat) : Ev → Nat
  | .start _ _ => clock
  | .done _ now _ => now

/-- A possible history of a build from `st`. -/
def Hist (g : Graph) (o : Opts) (changed : Trafo → Bool) : St → Nat → List Ev → Prop
  | _, _, [] => True
  | st, clock, e :: es => EvOk g st clock e ∧
      ∀ st1 l, step g o changed st e = some (st1, l) →
        Hist g o changed st1 (clockAfter clock e) es

/-- The situation at the beginning of a build: nothing has been looked at, every source file and
every file depended on exists, and no recorded time is in the future. -/
structure Ready (g : Graph) (st : St) (clock : Nat) : Prop where
  pending : ∀ t, st.status t = .pending
  sources : ∀ a, IsSource g a → st.ts a ≠ 0
  past : ∀ a, st.ts a ≤ clock
  clockPos : 0 < clock
  deps : ∀ d, st.depTs d ≠ 0 ∧ st.depTs d ≤ clock

/-- All transformers have been dealt with. -/
def Complete (g : Graph) (st : St) : Prop := ∀ t ∈ g.transformers, st.status t = .done

end Verif.UpToDate
