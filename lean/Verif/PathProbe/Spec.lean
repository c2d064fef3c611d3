import Verif.PathProbe.Model

/-! # Specification: what is looked for, and where -/

namespace Verif.PathProbe

/-- The components of a path -/
def comps (p : Text) : List Text := (splitOn '/' p).filter (fun c => !c.isEmpty)

def Absolute (p : Text) : Prop := p.head? = some '/'

/-- The directories where the user wants files to be searched -/
inductive Dir (w : World) (i : Input) : Text → Prop
  | search {p} : p ∈ i.searchPaths → Dir w i p
  | platform {p} : p ∈ i.platformSearchPaths → Dir w i p
  | env {e v p} : e ∈ i.environmentPaths ∨ e ∈ i.platformEnvironmentPaths → w.getEnv e = some v → v ≠ [] → p ∈ splitOn ':' v → Dir w i p

/-- What the user means by a selector: names and suffixes. The suffixes of a dictionary come first, then those of the probe. -/
inductive Means (suffixes : Option (List Text)) : Selector → List Text → Option (List Text) → Prop
  | str {s} : Means suffixes (.str s) [s] none
  | list {l} : Means suffixes (.list l) l none
  | own {n l} : Means suffixes (.dict (some n) (some l)) n (some l)
  | probe {n} : Means suffixes (.dict (some n) none) n suffixes

/-- The names that the user wants to be searched -/
inductive NameOf (i : Input) (c : Canonical) : Text → Prop
  | mk {n m s} : n ∈ c.names → (i.nameFilter = none ∧ m = n ∨ ∃ f, i.nameFilter = some f ∧ m ∈ f n) →
      (c.nameSuffixes = none ∧ s = [] ∨ ∃ l, c.nameSuffixes = some l ∧ s ∈ l) → NameOf i c (m ++ s)

/-- A candidate: name, directory and sub-directory -/
abbrev Cand := Text × Text × Text

def Cand.file (t : Cand) : Text := joinPaths [t.2.1, t.2.2, t.1]
def Cand.dir (t : Cand) : Text := joinPaths [t.2.1, t.2.2]

/-- The order in which candidates are tried: all directories for the first name, then for the second one, and so on -/
def order (names dirs subs : List Text) : List Cand :=
  names.flatMap fun n => dirs.flatMap fun d => subs.map fun s => (n, d, s)

/-- What the user accepts -/
def Accepted (w : World) (i : Input) (f : Text) : Prop :=
  w.fileExists f = true ∧ ∀ g, i.candidateFilter = some g → g f = true

end Verif.PathProbe
