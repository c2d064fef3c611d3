import Verif.Edit.Model
/-!
# C39: what a set of edits means

All positions refer to the original text.
-/
namespace Verif.Edit

/-- An edit: the characters from `pos` to `pos + len` are replaced by `text`. -/
abbrev Edit := Rep

/-- What the operations mean, for the text `s`. -/
def edits (s : Str) : Op → List Edit
  | .replace p l t => [⟨p, l, t⟩]
  | .insert p t => [⟨p, 0, t⟩]
  | .remove p l => [⟨p, l, []⟩]
  | .move p l to => [⟨p, l, []⟩, ⟨to, 0, (s.drop p.toNat).take l.toNat⟩]
  | .copy p l to => [⟨to, 0, (s.drop p.toNat).take l.toNat⟩]
  | .flip p l q m =>
    [⟨p, l, (s.drop q.toNat).take m.toNat⟩, ⟨q, m, (s.drop p.toNat).take l.toNat⟩]

/-- The new texts at a position. -/
def newAt (es : List Edit) (k : Int) : Str := (es.filter (fun e => e.pos == k)).flatMap (·.text)

/-- Whether the character at a position is replaced. -/
def gone (es : List Edit) (k : Int) : Bool := es.any (fun e => e.pos ≤ k && k < e.pos + e.len)

/-- All edits at once, for the text from position `k` on: at each position the new texts, then the
character that was there unless it is replaced. -/
def simultaneouslyFrom (es : List Edit) (k : Int) : Str → Str
  | [] => newAt es k
  | c :: s => newAt es k ++ (if gone es k then [] else [c]) ++ simultaneouslyFrom es (k + 1) s

def simultaneously (es : List Edit) (s : Str) : Str := simultaneouslyFrom es 0 s

/-- A range of the text; the second number is the length. -/
abbrev Range := Int × Int

/-- The ranges and positions an operation refers to. -/
def ranges : Op → List Range
  | .replace p l _ => [(p, l)]
  | .insert p _ => [(p, 0)]
  | .remove p l => [(p, l)]
  | .move p l to => [(p, l), (to, 0)]
  | .copy p l to => [(p, l), (to, 0)]
  | .flip p l q m => [(p, l), (q, m)]

/-- Two ranges have a character in common, or a position is in the interior of a range. -/
def Conflict (a b : Range) : Prop :=
  (0 < a.2 ∧ 0 < b.2 ∧ ∃ k, a.1 ≤ k ∧ k < a.1 + a.2 ∧ b.1 ≤ k ∧ k < b.1 + b.2) ∨
  (a.2 = 0 ∧ b.1 < a.1 ∧ a.1 < b.1 + b.2) ∨ (b.2 = 0 ∧ a.1 < b.1 ∧ b.1 < a.1 + a.2)

/-- The ranges lie in a text. -/
def Inside (s : Str) (r : Range) : Prop := 0 ≤ r.1 ∧ 0 ≤ r.2 ∧ r.1 + r.2 ≤ s.length

/-- Nothing is inserted at the start of a range after the replacement of this range. -/
def NoInsertAtStart (es : List Edit) : Prop :=
  es.Pairwise (fun a b => ¬ (0 < a.len ∧ b.len = 0 ∧ b.pos = a.pos))

end Verif.Edit
