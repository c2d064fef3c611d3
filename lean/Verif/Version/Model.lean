import Verif.Common.Digits

/-! # Model of `qbs::Version` and `qbs::VersionRange` (tools/version.h, tools/version.cpp) -/

namespace Verif.Version

open Verif.Digits

/-- `class Version`, version.h:56-92: four `int`s. -/
structure Version where
  major : Int := 0
  minor : Int := 0
  patch : Int := 0
  build : Int := 0
  deriving DecidableEq, Repr

/-- `Version::isValid`, version.h:67. -/
def Version.isValid (v : Version) : Bool :=
  v.major != 0 || v.minor != 0 || v.patch != 0 || v.build != 0

/-- `compare(const Version &, const Version &)`, version.h:109-128. -/
def compare (l r : Version) : Int :=
  if l.major < r.major then -1
  else if l.major > r.major then 1
  else if l.minor < r.minor then -1
  else if l.minor > r.minor then 1
  else if l.patch < r.patch then -1
  else if l.patch > r.patch then 1
  else if l.build < r.build then -1
  else if l.build > r.build then 1
  else 0

/-- `operator<`, version.h:138-141. -/
def lt (l r : Version) : Bool := compare l r < 0
/-- `operator>`, version.h:142-145. -/
def gt (l r : Version) : Bool := compare l r > 0
/-- `operator<=`, version.h:146-149. -/
def le (l r : Version) : Bool := !gt l r
/-- `operator>=`, version.h:150-153. -/
def ge (l r : Version) : Bool := !lt l r
/-- `operator==`, version.h:130-133. -/
def eq (l r : Version) : Bool := compare l r == 0

/-- Largest `int`. -/
def intMax : Nat := 2147483647

/-- `QString::toInt()` on a captured group: the group is empty (not captured) or consists of
digits; values that do not fit into an `int` give 0 (Qt documentation of `QString::toInt`). -/
def toInt (ds : List Char) : Int := if value ds ≤ intMax then value ds else 0

/-- One optional group `(?:[seps](\d+))?` of the regular expression in `fromString`: a separator
followed by at least one digit.  Returns the captured digits and the rest. -/
def optGroup (seps : List Char) (s : List Char) : List Char × List Char :=
  match s with
  | c :: cs => if c ∈ seps ∧ (spanDigits cs).1 ≠ [] then spanDigits cs else ([], s)
  | [] => ([], [])

/-- `Version::fromString`, version.cpp:47-63.  The anchored regular expression
`(\d+)(?:\.(\d+))?(?:\.(\d+))?` plus `(?:[-.](\d+))?` if build numbers are allowed.  The greedy
matching never has to backtrack, since after a digit group only a separator can follow
(see `Spec.lean` for the declarative language and the proof that the two agree). -/
def fromString (s : List Char) (buildNumberAllowed : Bool) : Version :=
  let (g1, r1) := spanDigits s
  if g1 = [] then {}
  else
    let (g2, r2) := optGroup ['.'] r1
    let (g3, r3) := optGroup ['.'] r2
    let (g4, r4) := if buildNumberAllowed then optGroup ['-', '.'] r3 else ([], r3)
    if r4 = [] then ⟨toInt g1, toInt g2, toInt g3, toInt g4⟩ else {}

/-- `QString::number(int)`. -/
def numberInt (i : Int) : List Char :=
  match i with
  | .ofNat n => number n
  | .negSucc n => '-' :: number (n + 1)

/-- `Version::toString`, version.cpp:65-76. -/
def toString (v : Version) (sep : Char := '.') (buildSep : Char := '-') : List Char :=
  if v.build ≠ 0 then
    numberInt v.major ++ sep :: (numberInt v.minor ++ sep :: (numberInt v.patch ++
      buildSep :: numberInt v.build))
  else
    numberInt v.major ++ sep :: (numberInt v.minor ++ sep :: numberInt v.patch)

/-- `class VersionRange`, version.h:94-107. -/
structure Range where
  minimum : Version := {}
  maximum : Version := {}
  deriving DecidableEq, Repr

/-- `VersionRange::narrowDown`, version.cpp:78-85. -/
def Range.narrowDown (r other : Range) : Range :=
  { minimum := if gt other.minimum r.minimum then other.minimum else r.minimum
    maximum := if other.maximum.isValid && lt other.maximum r.maximum then other.maximum
               else r.maximum }

/-- The check of a module's version against its accumulated range, productresolver.cpp:321-346:
`true` means no "does not match" error is thrown.  (The separate "Impossible version constraint"
error for `minimum >= maximum` also counts as rejection.) -/
def Range.accepts (r : Range) (v : Version) : Bool :=
  if r.minimum.isValid || r.maximum.isValid then
    if r.maximum.isValid && ge r.minimum r.maximum then false
    else if lt v r.minimum then false
    else if r.maximum.isValid && ge v r.maximum then false
    else true
  else true

/-- `DependenciesResolver::updateModule`, dependenciesresolver.cpp:544-553, applied for every
further `Depends` item on the same module; the first one initialises the range (1050). -/
def Range.accumulate (first : Range) (more : List Range) : Range :=
  more.foldl Range.narrowDown first

end Verif.Version
