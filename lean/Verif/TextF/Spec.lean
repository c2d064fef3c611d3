import Verif.TextF.Model

/-! What files are for users of scripts. -/
namespace Verif.TextF

/-- The ideal file: the bytes, and while it is open whether it can be read and written, and the
position.  There is no buffer, and nothing fails. -/
structure Ideal where
  bytes : Bytes
  open_ : Option (Bool × Bool × Nat)
  deriving DecidableEq, Repr

def iStep (s : Ideal) (op : BOp) : Ideal × Res :=
  match s.open_ with
  | none => (s, .error)
  | some (r, w, p) =>
    match op with
    | .close => (⟨s.bytes, none⟩, .unit)
    | .atEof => (s, .bool (s.bytes.length ≤ p))
    | .size => (s, .num s.bytes.length)
    | .resize n =>
      if w then
        (⟨s.bytes.take n ++ List.replicate (n - s.bytes.length) 0, some (r, w, min p n)⟩, .unit)
      else (s, .error)
    | .pos => (s, .num p)
    | .seek n => (⟨s.bytes, some (r, w, n)⟩, .unit)
    | .read n =>
      if r then
        (⟨s.bytes, some (r, w, p + ((s.bytes.drop p).take n).length)⟩, .bytes ((s.bytes.drop p).take n))
      else (s, .bytes [])
    | .write x => if w then (⟨splice s.bytes p x, some (r, w, p + x.length)⟩, .unit) else (s, .error)

def iRun (s : Ideal) : List BOp → Ideal × List Res
  | [] => (s, [])
  | o :: os =>
    let (s', r) := iStep s o
    let (s'', rs) := iRun s' os
    (s'', r :: rs)

/-- Reading, writing, or both. -/
def iOpen (b : Bytes) (mode : Nat) : Ideal :=
  if mode = 3 then ⟨b, some (true, true, 0)⟩
  else if mode = 1 then ⟨b, some (true, false, 0)⟩
  else ⟨[], some (false, true, 0)⟩

/-- What the writing operations put into a file. -/
def written (c : Codec) : List TOp → Bytes
  | [] => []
  | .write t :: os => encode c t ++ written c os
  | .writeLine t :: os => encode c t ++ [10] ++ written c os
  | _ :: os => written c os

def isWrite : TOp → Bool
  | .write _ | .writeLine _ => true
  | _ => false

/-- Text that consists of code points and does not start with a byte order mark. -/
def Plain (t : Text) : Prop := (∀ c ∈ t, c < 1114112) ∧ t.head? ≠ some bom

/-- A line that can be written and read again. -/
def Line (t : Text) : Prop := Plain t ∧ 10 ∉ t ∧ t.getLast? ≠ some 13

end Verif.TextF

namespace Verif.TextF

/-- The name of the codec that is used unless another is given. -/
def sUtf8 : Text := [85, 84, 70, 45, 56]

/-- A text file in UTF-8: lines, each with one of the usual ends, and possibly a last line without
end. -/
def fileOf (ls : List (Text × Bool)) (last : Text) : Bytes :=
  ls.flatMap (fun l => encode .utf8 l.1 ++ (if l.2 then [13, 10] else [10])) ++ encode .utf8 last

/-- The lines of such a file, as a user sees them. -/
def linesOf (ls : List (Text × Bool)) (last : Text) : List Text :=
  ls.map (·.1) ++ (if last = [] then [] else [last])

/-- Lines that are not taken for something else: no line contains a line feed, and only with a line
end of two characters may it end in a carriage return. -/
def LinesOk (ls : List (Text × Bool)) (last : Text) : Prop :=
  (∀ l ∈ ls, Plain l.1 ∧ 10 ∉ l.1 ∧ (l.2 = false → l.1.getLast? ≠ some 13)) ∧ Plain last ∧ 10 ∉ last

end Verif.TextF
