/-!
# Sets of edits of a project file (C39)

Model of src/lib/corelib/api/changeset.cpp 54-113, 132-160, 184-364 (class `ChangeSet`, with which
`ProjectFileUpdater` changes project files).

Simplifications: positions are unbounded integers instead of `int`. `QString::replace` outside the
string has no effect; its count is cut at the end of the string. `Unset` operations do not exist
(nothing makes them).
-/
namespace Verif.Edit

abbrev Str := List Char

/-- `ChangeSet::EditOp`, changeset.h 51-72. -/
inductive Op where
  | replace (pos len : Int) (text : Str)
  | move (pos len to : Int)
  | insert (pos : Int) (text : Str)
  | remove (pos len : Int)
  | flip (pos1 len1 pos2 len2 : Int)
  | copy (pos len to : Int)
deriving DecidableEq, Repr

/-- `overlaps`, changeset.cpp 54-66. -/
def overlaps (posA lengthA posB lengthB : Int) : Bool :=
  if lengthB > 0 then
    (posA < posB + lengthB && posA + lengthA ≥ posB + lengthB) ||
    (posA ≤ posB && posA + lengthA > posB) ||
    (posB < posA && posB + lengthB > posA + lengthA)
  else posB > posA && posB < posA + lengthA

/-- The loop body of `hasOverlap`, changeset.cpp 71-109. -/
def opOverlaps (pos length : Int) : Op → Bool
  | .replace p l _ => overlaps pos length p l
  | .move p l to => overlaps pos length p l || (to > pos && to < pos + length)
  | .insert p _ => p > pos && p < pos + length
  | .remove p l => overlaps pos length p l
  | .flip p1 l1 p2 l2 => overlaps pos length p1 l1 || overlaps pos length p2 l2
  | .copy p l to => overlaps pos length p l || (to > pos && to < pos + length)

/-- `hasOverlap`, changeset.cpp 68-113. -/
def hasOverlap (ops : List Op) (pos length : Int) : Bool := ops.any (opOverlaps pos length)

structure ChangeSet where
  ops : List Op
  error : Bool
deriving DecidableEq, Repr

/-- The conditions in `replace_helper`, `move_helper`, `insert`, `remove_helper`, `flip_helper` and
`copy_helper`, changeset.cpp 132-173, 205-248. -/
def rejects (ops : List Op) : Op → Bool
  | .replace p l _ => hasOverlap ops p l
  | .move p l to => hasOverlap ops p l || hasOverlap ops to 0 || overlaps p l to 0
  | .insert p _ => hasOverlap ops p 0
  | .remove p l => hasOverlap ops p l
  | .flip p1 l1 p2 l2 => hasOverlap ops p1 l1 || hasOverlap ops p2 l2 || overlaps p1 l1 p2 l2
  | .copy p l to => hasOverlap ops p l || hasOverlap ops to 0 || overlaps p l to 0

/-- These functions: the operation is appended in any case. -/
def ChangeSet.add (c : ChangeSet) (o : Op) : ChangeSet := ⟨c.ops ++ [o], c.error || rejects c.ops o⟩

/-- A change set after a sequence of calls. -/
def changes (ops : List Op) : ChangeSet := ops.foldl ChangeSet.add ⟨[], false⟩

/-- `Replace` operations, to which the others are converted. -/
structure Rep where
  pos : Int
  len : Int
  text : Str
deriving DecidableEq, Repr

/-- `textAt`, changeset.cpp 338-344. -/
def textAt (s : Str) (pos len : Int) : Str := (s.drop pos.toNat).take len.toNat

/-- `convertToReplace`, changeset.cpp 269-323. -/
def convert (s : Str) : Op → List Rep
  | .replace p l t => [⟨p, l, t⟩]
  | .move p l to => [⟨p, l, []⟩, ⟨to, 0, textAt s p l⟩]
  | .insert p t => [⟨p, 0, t⟩]
  | .remove p l => [⟨p, l, []⟩]
  | .flip p1 l1 p2 l2 => [⟨p1, l1, textAt s p2 l2⟩, ⟨p2, l2, textAt s p1 l1⟩]
  | .copy p l to => [⟨to, 0, textAt s p l⟩]

/-- The loop of `doReplace`, changeset.cpp 255-260. -/
def shift (r c : Rep) : Rep :=
  let p := if r.pos ≤ c.pos then c.pos + r.text.length else c.pos
  { c with pos := if r.pos < p then p - r.len else p }

/-- `QString::replace`, changeset.cpp 263-265. -/
def qreplace (s : Str) (r : Rep) : Str :=
  if r.pos < 0 ∨ r.pos > s.length then s
  else s.take r.pos.toNat ++ r.text ++ s.drop (r.pos + r.len).toNat

/-- "execute replaces", changeset.cpp 357-362. -/
def execute (s : Str) : List Rep → Str
  | [] => s
  | r :: rs => execute (qreplace s r) (rs.map (shift r))
termination_by rs => rs.length
decreasing_by simp

/-- `apply`, changeset.cpp 331-336, 346-362. -/
def ChangeSet.apply (c : ChangeSet) (s : Str) : Str := execute s (c.ops.flatMap (convert s))

end Verif.Edit
