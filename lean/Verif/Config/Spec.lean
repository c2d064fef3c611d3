import Verif.Config.Model
/-!
# C109: settings that survive an export

What keys and values are meant, in terms of how they are written.
-/
namespace Verif.Config

open Verif.Literal (Str Var Good)
open Verif.Settings (externalRepresentation forbidden)

/-- The state of `QSettings` objects: different keys, normalised; dots never get into them (settings.cpp
227-231). -/
structure Tidy (m : Store) : Prop where
  different : (m.map (·.1)).Nodup
  normal : ∀ e ∈ m, normalizedKey e.1 = e.1 ∧ e.1 ≠ []
  noDots : ∀ e ∈ m, '.' ∉ e.1

/-- A key, as it is shown to users, that is read again from the beginning of a line: one line, without
colons, no comment, no white space at the ends; not of a profile whose name begins with "none". -/
structure KeyOk (k : Str) : Prop where
  noColon : ':' ∉ k
  oneLine : '\n' ∉ k
  noComment : k.head? ≠ some '#'
  noSpace : ∀ c, k.head? = some c ∨ k.getLast? = some c → isSpace c = false
  allowed : ¬ forbidden <+: k

mutual
/-- All integers have less than 32 bits. -/
def Small : Var → Prop
  | .int n => n.natAbs < 2 ^ 31
  | .list l => SmallAll l
  | .map l => SmallEntries l
  | _ => True
def SmallAll : List Var → Prop
  | [] => True
  | v :: l => Small v ∧ SmallAll l
def SmallEntries : List (Str × Var) → Prop
  | [] => True
  | (_, v) :: l => Small v ∧ SmallEntries l
end

/-- The values that `qbs config` stores: booleans and integers in a hash, strings, lists and maps plain.
Strings have no ends of lines (`Good`), integers less than 32 bits. -/
def ValOk : SVal → Prop
  | .hash (.bool _) => True
  | .hash (.int n) => n.natAbs < 2 ^ 31
  | .hash _ => False
  | .plain (.str s) => Good (.str s)
  | .plain (.list l) => Good (.list l) ∧ Small (.list l)
  | .plain (.map l) => Good (.map l) ∧ Small (.map l)
  | .plain _ => False

/-- The other settings, which are not written. -/
def other (s : St) : Scopes → Store
  | .system => s.user
  | _ => s.system

/-- The value in the chosen scopes, by the key in the file. -/
def lookup (s : St) (o : Scopes) (k : Str) : Option SVal := value s (externalRepresentation k) o

end Verif.Config
