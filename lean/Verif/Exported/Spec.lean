import Verif.Exported.Model

/-! What a product should export. -/
namespace Verif.Exported

/-- The replacement for a prefix: that of the last entry for it. -/
def replacement (l : List (Str × Str)) (p : Str) : Option Str :=
  (l.reverse.find? (fun e => e.1 = p)).map (·.2)

/-- The module `i` counts: it was found and is a proper module. -/
def Counts (ms : List Mod) (i : Nat) : Prop :=
  ∃ m, ms[i]? = some m ∧ m.present = true ∧ m.product = false ∧ m.name.head? ≠ some sQbs ∧ m.broken = false

/-- The modules an Export item depends on, directly or through other modules. -/
inductive Needs (ms : List Mod) (direct : List Nat) : Nat → Prop where
  | direct {i : Nat} : i ∈ direct → Counts ms i → Needs ms direct i
  | sub {i j : Nat} {m : Mod} : Needs ms direct i → ms[i]? = some m → j ∈ m.subs → Counts ms j →
      Needs ms direct j

/-- The name of a module. -/
def Named (ms : List Mod) (i : Nat) (n : List Str) : Prop := ∃ m, ms[i]? = some m ∧ m.name = n

/-- There is one module for a name. -/
def OneEach (ms : List Mod) : Prop :=
  ∀ i j n, Counts ms i → Counts ms j → Named ms i n → Named ms j n → i = j

end Verif.Exported
