import Verif.Lsp.Server

/-
The client's side: texts that are edited, the order of messages, and what can be typed next.
-/

namespace Verif.Lsp

/-- The position behind the text `pre`: the number of its line breaks, and the number of characters
    behind the last one. -/
def posOf (pre : List Char) : Pos :=
  { line := pre.count '\n', character := (pre.reverse.takeWhile (· != '\n')).length }

/-- What a user does with a text: load another one, or replace `mid` by `new` in `pre ++ mid ++ post`. -/
inductive Edit where
  | whole (text : List Char)
  | part (pre mid post new : List Char)

/-- How a client tells it. -/
def Edit.change : Edit → Change
  | .whole t => { range := none, text := t }
  | .part pre mid _ new => { range := some (posOf pre, posOf (pre ++ mid)), text := new }

/-- `Edits t es u`: the edits make `u` from `t`. -/
inductive Edits : List Char → List Edit → List Char → Prop where
  | nil (t) : Edits t [] t
  | whole {t t' es u} : Edits t' es u → Edits t (.whole t' :: es) u
  | part {pre mid post new es u} : Edits (pre ++ new ++ post) es u →
      Edits (pre ++ mid ++ post) (.part pre mid post new :: es) u

/-- The edit does not begin in the first line of the text. -/
def Edit.NotInFirstLine : Edit → Prop
  | .whole _ => True
  | .part pre _ _ _ => '\n' ∈ pre

/-- A client with its open files: what the user sees and what was saved. -/
inductive ClientStep {P : Type} [DecidableEq P] :
    (P → Option Document) → Req P → (P → Option Document) → Prop where
  | opened {c p t} : c p = none →
      ClientStep c (.didOpen (some (p, t))) (fun q => if q = p then some ⟨t, t⟩ else c q)
  | changed {c p d es u} : c p = some d → Edits d.current es u → (∀ e ∈ es, e.NotInFirstLine) →
      ClientStep c (.didChange (some (p, es.map Edit.change)))
        (fun q => if q = p then some ⟨d.saved, u⟩ else c q)
  | saved {c p d} : c p = some d →
      ClientStep c (.didSave p) (fun q => if q = p then some ⟨d.current, d.current⟩ else c q)
  | closed {c p d} : c p = some d →
      ClientStep c (.didClose p) (fun q => if q = p then none else c q)

/-- A history of the client. -/
inductive ClientRun {P : Type} [DecidableEq P] :
    (P → Option Document) → List (Req P) → (P → Option Document) → Prop where
  | nil (c) : ClientRun c [] c
  | cons {c c1 c2 r rs} : ClientStep c r c1 → ClientRun c1 rs c2 → ClientRun c (r :: rs) c2

/-- The messages that are to be answered. -/
def Req.isRequest {P : Type} : Req P → Bool
  | .shutdown | .initialize | .definition | .completion | .other => true
  | _ => false

def Req.isExit {P : Type} : Req P → Bool
  | .exit => true
  | _ => false

def Req.isInitialize {P : Type} : Req P → Bool
  | .initialize => true
  | _ => false

def Req.isShutdown {P : Type} : Req P → Bool
  | .shutdown => true
  | _ => false

/-- The id that a response answers. -/
def Out.id : Out → Option Nat
  | .result id => id
  | .error id _ => id
  | .notification => none

/-- The client has initialized the server and has not shut it down. -/
def Running {P : Type} (ms : List (Option Nat × Req P)) : Prop :=
  (∃ m ∈ ms, m.2.isInitialize = true) ∧ ∀ m ∈ ms, m.2.isShutdown = false

/-- The text `m1.m2.….mn.l`. -/
def dotted (ms : List (List Char)) (l : List Char) : List Char :=
  ms.flatMap (fun m => m ++ ['.']) ++ l

/-- The text `b` does not end with a part of a qualified name. -/
def NoName (isId : Char → Bool) (b : List Char) : Prop :=
  (∀ b' c, b = b' ++ [c] → isId c = false) ∧ (∀ b' c, b = b' ++ [c, '.'] → isId c = false)

/-- `ms` and `ident` are what is typed at the end of `pre`: names with dots between them, as many as
    possible. -/
def Typed (isId : Char → Bool) (pre : List Char) (ms : List (List Char)) (ident : List Char) : Prop :=
  ∃ b, pre = b ++ dotted ms ident ∧ NoName isId b ∧
    (∀ m ∈ ms, m ≠ [] ∧ ∀ c ∈ m, isId c = true) ∧ ∀ c ∈ ident, isId c = true

/-- The completion `l` for `m1.….mn.ident` in a product: if the names before the last dot are those of
    a module, a property of it that is not built in; otherwise the rest of the name of a module. -/
def Offers (ms : List (List Char)) (ident : List Char) (modules : List Module) (l : List Char) : Prop :=
  ident <+: l ∧
  if ms ≠ [] ∧ ∃ m ∈ modules, m.name ++ ['.'] = dotted ms [] then
    ∃ m ∈ modules, m.name ++ ['.'] = dotted ms [] ∧ ∃ t, (l, t, false) ∈ m.props
  else ∃ m ∈ modules, m.name = dotted ms l

end Verif.Lsp
