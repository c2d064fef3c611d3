import Verif.Wild.Model
/-!
# C55: which files are meant by a pattern
-/
namespace Verif.Wild

/-- A directory that comes after `**` and is given by name is looked for in hidden directories too. -/
def looksIntoHidden : List Name → Bool
  | [] => false
  | p :: rest => if p = starStar then looksIntoHidden rest else !isPattern p && !rest.isEmpty

/-- The path `f` is meant by the parts of a pattern, starting from a directory. -/
inductive Denotes (env : Env) : Path → List Name → Path → Prop
  /-- The last part means what it matches and is neither hidden nor a directory; symbolic links are meant. -/
  | file {base : Path} {part n : Name} {i : Info} : part ≠ starStar → (n, i) ∈ env.fs.entries base →
      env.glob part n = true → hidden n = false → (i.isDir = true → i.isLink = true) → Denotes env base [part] (base ++ [n])
  /-- Other parts mean the directories they match, hidden ones only if given by name; symbolic links are followed. -/
  | dir {base : Path} {part n : Name} {i : Info} {rest : List Name} {f : Path} : part ≠ starStar → rest ≠ [] →
      (n, i) ∈ env.fs.entries base → env.glob part n = true → (hidden n = true → isPattern part = false) →
      i.isDir = true → Denotes env (base ++ [n]) rest f → Denotes env base (part :: rest) f
  | dots {base : Path} {part : Name} {rest : List Name} {f : Path} : part = dot ∨ part = dotDot → rest ≠ [] →
      Denotes env (base ++ [part]) rest f → Denotes env base (part :: rest) f
  /-- `**` means any number of directories, not hidden (but see above), symbolic links are not followed. -/
  | here {base : Path} {rest : List Name} {f : Path} : rest ≠ [] → Denotes env base rest f →
      Denotes env base (starStar :: rest) f
  | down {base : Path} {n : Name} {i : Info} {rest : List Name} {f : Path} : (n, i) ∈ env.fs.entries base →
      i.isDir = true → i.isLink = false → (hidden n = true → looksIntoHidden rest = true) →
      Denotes env (base ++ [n]) (starStar :: rest) f → Denotes env base (starStar :: rest) f
  /-- `**` at the end is the same as `**/*`. -/
  | all {base : Path} {f : Path} : Denotes env base [starStar, star] f → Denotes env base [starStar] f

/-- Facts about names and matching: no entry is called `.` or `..`; names without special characters match only
    themselves. -/
structure Env.Sane (env : Env) : Prop where
  names : ∀ p n i, (n, i) ∈ env.fs.entries p → n ≠ dot ∧ n ≠ dotDot
  infos : ∀ p n i, (n, i) ∈ env.fs.entries p → i.isDir = true → i.isFile = false ∧ i.found = true
  literal : ∀ p n, isPattern p = false → (env.glob p n = true ↔ n = p)

/-- Where the search for a pattern starts, and its parts. -/
def startOf (env : Env) (w : Wildcards) (pattern : List Char) : Path :=
  if (wholePattern env w.prefix_ pattern).head? = some '/' then [] else w.baseDir

def partsOf (env : Env) (w : Wildcards) (pattern : List Char) : List Name := splitParts (wholePattern env w.prefix_ pattern)

/-- The file is meant by one of the patterns. -/
def Meant (env : Env) (w : Wildcards) (patterns : List (List Char)) (f : Path) : Prop :=
  ∃ pat ∈ patterns, ∃ raw, Denotes env (startOf env w pat) (partsOf env w pat) raw ∧ f = clean raw

/-- The file is in a directory, directly or further down. -/
def Inside (dir f : Path) : Prop := dir <+: f.dropLast

/-- No pattern is empty. -/
def Wildcards.NoEmpty (env : Env) (w : Wildcards) : Prop :=
  ∀ pat ∈ w.patterns ++ w.excluded, partsOf env w pat ≠ []

/-- Whether a file that is meant is inside the build directory can be seen from the beginning of its path; that is: no
    other directory's name begins with that of the build directory, and the patterns don't contain `..`. -/
def Wildcards.Plain (env : Env) (w : Wildcards) (dir : Path) : Prop :=
  ∀ pat ∈ w.patterns ++ w.excluded, ∀ raw, Denotes env (startOf env w pat) (partsOf env w pat) raw →
    (str dir <+: str raw.dropLast ↔ Inside dir (clean raw))

end Verif.Wild
