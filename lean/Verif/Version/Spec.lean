import Verif.Version.Model

/-! # Specification for versions -/

namespace Verif.Version

open Verif.Digits

/-- A non-empty string of decimal digits. -/
def IsNum (s : List Char) : Prop := s ≠ [] ∧ ∀ c ∈ s, c.isDigit = true

/-- `(?:[seps](\d+))?` as a declarative language: nothing, or separator and number. -/
def OptGroup (seps : List Char) (g text : List Char) : Prop :=
  (g = [] ∧ text = []) ∨ (IsNum g ∧ ∃ c ∈ seps, text = c :: g)

/-- Some way to match the whole string with the regular expression of `Version::fromString`,
with the captured groups. -/
def Matches (allowBuild : Bool) (s g1 g2 g3 g4 : List Char) : Prop :=
  ∃ t2 t3 t4, s = g1 ++ t2 ++ t3 ++ t4 ∧ IsNum g1 ∧ OptGroup ['.'] g2 t2 ∧ OptGroup ['.'] g3 t3 ∧
    (if allowBuild then OptGroup ['-', '.'] g4 t4 else g4 = [] ∧ t4 = [])

/-- Lexicographic order on the four components. -/
def LexLt (l r : Version) : Prop :=
  l.major < r.major ∨ (l.major = r.major ∧ (l.minor < r.minor ∨ (l.minor = r.minor ∧
    (l.patch < r.patch ∨ (l.patch = r.patch ∧ l.build < r.build)))))

instance (l r : Version) : Decidable (LexLt l r) := by unfold LexLt; infer_instance

/-- A version as the parser can produce it: non-negative components that fit into an `int`. -/
def Version.Wf (v : Version) : Prop :=
  0 ≤ v.major ∧ v.major ≤ intMax ∧ 0 ≤ v.minor ∧ v.minor ≤ intMax ∧
  0 ≤ v.patch ∧ v.patch ≤ intMax ∧ 0 ≤ v.build ∧ v.build ≤ intMax

/-- The versions a range stands for: not below the minimum, and below the maximum if there is
one (`versionAtLeast`/`versionBelow` in the documentation of `Depends`). -/
def Range.Allows (r : Range) (v : Version) : Prop :=
  ¬ LexLt v r.minimum ∧ (r.maximum = {} ∨ LexLt v r.maximum)

end Verif.Version
