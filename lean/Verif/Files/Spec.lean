import Verif.Files.Model
/-!
# What removing, copying and moving files should do (C63, C64, C65)
-/
namespace Verif.Files

/-- Files are in directories. -/
structure WF (fs : FS) : Prop where
  root : ∃ w t, get fs [] = some (.dir w t)
  parents : ∀ p n, get fs (p ++ [n]) ≠ none → ∃ w t, get fs p = some (.dir w t)

/-- All names in a directory are listed. -/
def Lists (e : Env) : Prop := ∀ l, (e.order l).Perm l

/-- Where links lead to -/
inductive Leads (e : Env) (fs : FS) : Path → Path → Prop
  | here {p : Path} {n : Node} (h : get fs p = some n) (hl : ∀ t, n ≠ .link t) : Leads e fs p p
  | link {p q : Path} {t : String} (h : get fs p = some (.link t)) (hq : Leads e fs (e.place p.dropLast t) q) : Leads e fs p q

/-- The same but for the permission to write, which may have been given -/
inductive MadeWritable : Node → Node → Prop
  | file (c : Nat) (w : Bool) (t : Nat) : MadeWritable (.file c w t) (.file c true t)
  | dir (w : Bool) (t : Nat) : MadeWritable (.dir w t) (.dir true t)

/-! ## Copying -/

def IsDir (n : Option Node) : Prop := ∃ w t, n = some (.dir w t)

/-- Something that is at least as new -/
inductive Newer (time : Nat) : Option Node → Prop
  | file (c : Nat) (w : Bool) {t : Nat} (h : time ≤ t) : Newer time (some (.file c w t))
  | dir (w : Bool) {t : Nat} (h : time ≤ t) : Newer time (some (.dir w t))

/-- A file or directory has been copied to its place: links with their text, files with their content and permissions, unless
    there was something that is at least as new. Directories are there if there is something in them. Where the source has
    nothing, nothing is changed. -/
def Arrived (fs fs' : FS) (src tgt : Path) : Prop :=
  match get fs src with
  | some (.link t) => get fs' tgt = some (.link t)
  | some (.file c w t) => (∃ t', get fs' tgt = some (.file c w t')) ∨ (get fs' tgt = get fs tgt ∧ Newer t (get fs tgt))
  | some (.dir _ _) =>
    ((∃ n, get fs (src ++ [n]) ≠ none) → IsDir (get fs' tgt)) ∧
    ((∀ n, get fs (src ++ [n]) = none) → get fs' tgt = get fs tgt)
  | none => get fs' tgt = get fs tgt

/-- Neither is in the other. -/
def Apart (src tgt : Path) : Prop := ¬ src <+: tgt ∧ ¬ tgt <+: src

/-- There is no directory where a file or link is to be put, and no file where a directory is needed. -/
structure Compatible (fs : FS) (src tgt : Path) : Prop where
  above : ∀ q, q <+: tgt → q ≠ tgt → get fs q = none ∨ IsDir (get fs q)
  leaf : ∀ q, get fs (src ++ q) ≠ none → ¬ IsDir (get fs (src ++ q)) → ¬ IsDir (get fs (tgt ++ q))
  dir : ∀ q, IsDir (get fs (src ++ q)) → get fs (tgt ++ q) = none ∨ IsDir (get fs (tgt ++ q))

end Verif.Files
