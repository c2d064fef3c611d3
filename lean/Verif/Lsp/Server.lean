/-
What the language server does with the messages: src/app/qbs/lspserver.cpp. A text is a list of
UTF-16 code units, each a `Char`. Not modelled: the JSON of the messages, URIs, and what is looked up
for go-to-definition (a result is sent in every case).
-/

namespace Verif.Lsp

/-- lsp::Position: line and character, counted from 0. The numbers come from the client. -/
structure Pos where
  line : Int
  character : Int
  deriving DecidableEq

/-- QString::indexOf('\n'). -/
def findNl : List Char → Option Nat
  | [] => none
  | c :: cs => if c = '\n' then some 0 else (findNl cs).map (· + 1)

/-- The loop of `posToOffset`, lspserver.cpp 853-858: `k` rounds are left, `s` is the text behind
    `next`. `none` is the return on line 856. -/
def nlLoop : (k next : Nat) → (s : List Char) → (offset : Nat) → Option Nat
  | 0, _, _, offset => some offset
  | k + 1, next, s, _ =>
    match findNl s with
    | none => none
    | some i => nlLoop k (next + i + 1) (s.drop (i + 1)) (next + i)

/-- `posToOffset` for a CodePosition (line and column counted from 1), lspserver.cpp 850-860. -/
def codePosToOffset (line column : Int) (doc : List Char) : Int :=
  match nlLoop (line - 1).toNat 0 doc 0 with
  | none => -1
  | some offset => offset + column

/-- `posToOffset` for an lsp::Position, lspserver.cpp 98-101 and 114-117. -/
def posToOffset (p : Pos) (doc : List Char) : Int :=
  codePosToOffset (p.line + 1) (p.character + 1) doc

/-- QString::replace(pos, len, after): nothing happens if `pos` is outside of the string. -/
def replaceAt (s : List Char) (pos len : Int) (after : List Char) : List Char :=
  if pos < 0 ∨ (s.length : Int) < pos then s
  else s.take pos.toNat ++ after ++ s.drop (pos.toNat + len.toNat)

/-- TextDocumentContentChangeEvent. -/
structure Change where
  range : Option (Pos × Pos)
  text : List Char
  deriving DecidableEq

/-- The loop of `handleDidChangeNotification`, lspserver.cpp 717-728. `true`: "Invalid range". -/
def applyChanges (doc : List Char) : List Change → List Char × Bool
  | [] => (doc, false)
  | c :: cs =>
    match c.range with
    | none => applyChanges c.text cs
    | some (s, e) =>
      let startPos := posToOffset s doc
      let endPos := posToOffset e doc
      if startPos = -1 ∨ endPos = -1 ∨ endPos < startPos then (doc, true)
      else applyChanges (replaceAt doc startPos (endPos - startPos) c.text) cs

/-- `Document`, lspserver.cpp 89-96. -/
structure Document where
  saved : List Char
  current : List Char
  deriving DecidableEq

/-- `QStringView::left(n)`; the whole string if `n` is negative. -/
def left (s : List Char) (n : Int) : List Char := if n < 0 then s else s.take n.toNat

/-- `Document::isPositionUpToDate`, lspserver.cpp 862-874. -/
def Document.isPositionUpToDate (d : Document) (p : Pos) : Bool :=
  let origOffset := posToOffset p d.saved
  if (d.current.length : Int) < origOffset then false
  else decide (left d.current origOffset = left d.saved origOffset)

/-- The state, lspserver.cpp 201-202. -/
inductive State where
  | none | initRequest | initNotification | shutdown
  deriving DecidableEq

/-- The messages, by their method (lspserver.cpp 313-341); `none`: the parameters are not valid. -/
inductive Req (P : Type) where
  | exit
  | shutdown
  | initialize
  | initialized
  | didOpen (params : Option (P × List Char))
  | didChange (params : Option (P × List Change))
  | didSave (file : P)
  | didClose (file : P)
  | definition
  | completion
  | other

/-- LspErrorResponse codes. -/
inductive Code where
  | invalidRequest | serverNotInitialized | methodNotFound | invalidParams
  deriving DecidableEq

/-- What the server sends. A response has the id of the message that it answers; a message without
    an id is a notification. -/
inductive Out where
  | result (id : Option Nat)
  | error (id : Option Nat) (c : Code)
  | notification
  deriving DecidableEq

/-- `state`, `documents` and whether there is a socket. -/
structure Srv (P : Type) where
  state : State := .none
  docs : P → Option Document := fun _ => .none
  open' : Bool := true

variable {P : Type} [DecidableEq P]

def setDoc (docs : P → Option Document) (p : P) (d : Option Document) : P → Option Document :=
  fun q => if q = p then d else docs q

/-- `handleDidOpenNotification`, lspserver.cpp 693-703. -/
def didOpen (s : Srv P) : Option (P × List Char) → Srv P × List Out
  | none => (s, [.notification])
  | some (p, t) => ({ s with docs := setDoc s.docs p (some { saved := t, current := t }) }, [])

/-- `handleDidChangeNotification`, lspserver.cpp 705-729. -/
def didChange (s : Srv P) (id : Option Nat) : Option (P × List Change) → Srv P × List Out
  | none => (s, [.notification])
  | some (p, cs) =>
    match s.docs p with
    | none => (s, [.notification])
    | some d =>
      let r := applyChanges d.current cs
      ({ s with docs := setDoc s.docs p (some { d with current := r.1 }) },
       if r.2 then [.error id .invalidParams] else [])

/-- `handleDidSaveNotification`, lspserver.cpp 731-743. -/
def didSave (s : Srv P) (p : P) : Srv P × List Out :=
  match s.docs p with
  | none => (s, [.notification])
  | some d => ({ s with docs := setDoc s.docs p (some { d with saved := d.current }) }, [])

/-- `handleDidCloseNotification`, lspserver.cpp 745-754. -/
def didClose (s : Srv P) (p : P) : Srv P × List Out :=
  match s.docs p with
  | none => (s, [.notification])
  | some _ => ({ s with docs := setDoc s.docs p none }, [])

/-- `handleInitializeRequest`, lspserver.cpp 346-367. -/
def doInitialize (s : Srv P) (id : Option Nat) : Srv P × List Out :=
  if s.state ≠ .none then (s, [.error id .invalidRequest])
  else ({ s with state := .initRequest }, [.result id])

/-- `handleInitializedNotification`, lspserver.cpp 369-376. -/
def doInitialized (s : Srv P) (id : Option Nat) : Srv P × List Out :=
  if s.state ≠ .initRequest then (s, [.error id .invalidRequest])
  else ({ s with state := .initNotification }, [])

/-- `handleCurrentMessage`, lspserver.cpp 310-344, and `handleShutdownRequest`, 687-691. -/
def handle (s : Srv P) (id : Option Nat) : Req P → Srv P × List Out
  | .exit => ({ s with open' := false }, [])
  | r =>
    if s.state = .shutdown then (s, [.error id .invalidRequest])
    else match r with
      | .shutdown => ({ s with state := .shutdown }, [.result id])
      | .initialize => doInitialize s id
      | r =>
        if s.state = .none then (s, [.error id .serverNotInitialized])
        else match r with
          | .initialized => doInitialized s id
          | .didOpen p => didOpen s p
          | .didChange p => didChange s id p
          | .didSave p => didSave s p
          | .didClose p => didClose s p
          | .definition => (s, [.result id])
          | .completion => (s, [.result id])
          | _ => (s, [.error id .methodNotFound])

/-- The messages of a client one after the other; nothing is read when the socket has been discarded
    (lspserver.cpp 255). -/
def handleAll (s : Srv P) : List (Option Nat × Req P) → Srv P × List Out
  | [] => (s, [])
  | (id, r) :: ms =>
    if s.open' then
      let a := handle s id r
      let b := handleAll a.1 ms
      (b.1, a.2 ++ b.2)
    else (s, [])

/-- A module of a product with its properties: name, type, whether it is built in. -/
structure Module where
  name : List Char
  props : List (List Char × List Char × Bool)

/-- `constructIdentifier`, lspserver.cpp 587-597, on the text before the cursor in reverse: the
    identifier and the text before it. -/
def identifier (isId : Char → Bool) (rev : List Char) : List Char × List Char :=
  ((rev.takeWhile isId).reverse, rev.dropWhile isId)

/-- The loop of `collectFromRawString`, lspserver.cpp 599-607. `rev` is the text up to `currentPos`
    in reverse. The first argument bounds the rounds; each one takes away a character. -/
def prefixes (isId : Char → Bool) : Nat → (rev : List Char) → List (List Char) → List (List Char)
  | 0, _, acc => acc
  | n + 1, rev, acc =>
    if rev.length ≤ 1 ∨ rev.head? ≠ some '.' then acc
    else
      let r := identifier isId rev.tail
      if r.1 = [] then acc
      else prefixes isId n r.2 (r.1 :: acc)

/-- `collectFromRawString`, lspserver.cpp 585-608: `modulePrefixes` and `identifierPrefix`. -/
def collect (isId : Char → Bool) (content : List Char) (offset : Nat) :
    List (List Char) × List Char :=
  let rev := (content.take (offset + 1)).reverse
  let r := identifier isId rev
  (prefixes isId rev.length r.2 [], r.1)

/-- `QStringList::join('.')`. -/
def joinDots : List (List Char) → List Char
  | [] => []
  | [a] => a
  | a :: b :: r => a ++ '.' :: joinDots (b :: r)

/-- QMap::insert; the order of the map is not modelled. -/
def insertName (m : List (List Char × List Char)) (k v : List Char) : List (List Char × List Char) :=
  m.filter (fun p => p.1 != k) ++ [(k, v)]

/-- One product, lspserver.cpp 641-675. -/
def completeProduct (modulePrefixes : List (List Char)) (ident : List Char)
    (acc : List (List Char × List Char)) (modules : List Module) : List (List Char × List Char) :=
  let moduleNameOrPrefix := joinDots modulePrefixes
  if modulePrefixes ≠ [] ∧ moduleNameOrPrefix ∈ modules.map Module.name then
    ((modules.filter (fun m => m.name == moduleNameOrPrefix)).flatMap Module.props).foldl
      (fun acc p =>
        if p.2.2 = true then acc
        else if ident ≠ [] ∧ ident.isPrefixOf p.1 = false then acc
        else insertName acc p.1 p.2.1) acc
  else
    let fullPrefix := if modulePrefixes ≠ [] then moduleNameOrPrefix ++ '.' :: ident else ident
    let nameOffset := if modulePrefixes ≠ [] then moduleNameOrPrefix.length + 1 else 0
    modules.foldl (fun acc m =>
      if fullPrefix.isPrefixOf m.name then insertName acc (m.name.drop nameOffset) [] else acc) acc

/-- `handleCompletionRequest`, lspserver.cpp 564-685, for the relevant products; `none`: the answer is
    null. `skip` says that the node at the offset is none of those of lines 623-631. -/
def complete (isId : Char → Bool) (skip : List Char → Nat → Bool) (products : List (List Module))
    (content : List Char) (p : Pos) : Option (List (List Char × List Char)) :=
  if products = [] then none
  else
    let offset := posToOffset p content - 1
    if offset < 0 ∨ (content.length : Int) ≤ offset then none
    else if skip content offset.toNat then none
    else
      let c := collect isId content offset.toNat
      if c.1 = [] ∧ c.2 = [] then none
      else some (products.foldl (completeProduct c.1 c.2) [])

end Verif.Lsp
