import Verif.Common.Digits

/-
How the language server gets its messages: src/shared/lsp/basemessage.cpp and the first part of
src/app/qbs/lspserver.cpp. A `Char` stands for a byte. Not modelled: JSON; the message texts; codecs,
of which only the names are kept (`known` says which names QTextCodec::codecForName finds).
-/

namespace Verif.Lsp

/-- `contentLengthFieldName`, basemessage.cpp 22. -/
def contentLengthName : List Char := "Content-Length".toList

/-- `contentTypeFieldName`, basemessage.cpp 24. -/
def contentTypeName : List Char := "Content-Type".toList

/-- `headerSeparator`, basemessage.cpp 23. -/
def headerSeparator : List Char := ['\r', '\n']

/-- `jsonRpcMimeType`, jsonrpcmessages.cpp 92-95. -/
def jsonRpcMimeType : List Char := "application/vscode-jsonrpc".toList

/-- `defaultCharset`, basemessage.cpp 21. -/
def defaultCharset : List Char := "utf-8".toList

/-- BaseMessage, basemessage.h 36-39. The codec is represented by its name. -/
structure Msg where
  mimeType : List Char := jsonRpcMimeType
  content : List Char := []
  contentLength : Int := -1
  codec : List Char := defaultCharset
  deriving DecidableEq

/-- The two messages that can be stored in `parseError`, basemessage.cpp 83-87 and 98-101. -/
inductive PErr where
  | noCodec (charset : List Char)
  | noInteger (value : List Char)
  deriving DecidableEq

/-- The characters that QByteArray::trimmed() removes. -/
def isBlank (c : Char) : Bool :=
  c == ' ' || c == '\t' || c == '\n' || c == '\r' || c == '\x0b' || c == '\x0c'

/-- QByteArray::trimmed. -/
def trimmed (s : List Char) : List Char :=
  ((s.dropWhile isBlank).reverse.dropWhile isBlank).reverse

/-- `splitHeaderFieldLine`, basemessage.cpp 57-67: the text before and after the first ": ". -/
def splitField : List Char → Option (List Char × List Char)
  | [] => none
  | c :: cs =>
    if c = ':' ∧ cs.head? = some ' ' then some ([], cs.tail)
    else (splitField cs).map fun p => (c :: p.1, p.2)

/-- The digits of a number; `none` if there are none or something else is there. -/
def digits (s : List Char) : Option Nat :=
  if s ≠ [] ∧ s.all Char.isDigit = true then some (Digits.value s) else none

/-- QByteArray::toInt for a value without blanks at its ends: an optional sign, digits, and the
    result must be an `int`. -/
def toInt (s : List Char) : Option Int :=
  let v : Option Int := match s with
    | '-' :: r => (digits r).map fun n => -(n : Int)
    | '+' :: r => (digits r).map fun n => (n : Int)
    | r => (digits r).map fun n => (n : Int)
  match v with
  | some i => if -(2 ^ 31 : Int) ≤ i ∧ i < 2 ^ 31 then some i else none
  | none => none

/-- `parseContentLength`, basemessage.cpp 94-102: toInt() returns 0 if it fails. -/
def parseContentLength (m : Msg) (e : Option PErr) (v : List Char) : Msg × Option PErr :=
  match toInt v with
  | some i => ({ m with contentLength := i }, e)
  | none => ({ m with contentLength := 0 }, some (.noInteger v))

/-- QByteArray::split. -/
def splitAt' (sep : Char) : List Char → List (List Char)
  | [] => [[]]
  | c :: cs =>
    if c = sep then [] :: splitAt' sep cs
    else match splitAt' sep cs with
      | [] => [[c]]
      | l :: ls => (c :: l) :: ls

/-- One element of the content type, basemessage.cpp 76-88. `known` is codecForName() ≠ null. -/
def typeElement (known : List Char → Bool) (s : Option (List Char) × Option PErr) (el : List Char) :
    Option (List Char) × Option PErr :=
  let el := trimmed el
  if "charset".toList.isPrefixOf el then
    let charset := if '=' ∈ el then (el.dropWhile (· != '=')).tail else el
    let codec := if '=' ∈ el then (if known charset then some charset else none) else s.1
    (codec, if codec = none then some (.noCodec charset) else s.2)
  else s

/-- basemessage.cpp 71-72: quotes around the content type are removed. (A single quote character
    is both the first and the last: `mid(1, -1)` of it is empty.) -/
def unquote (v : List Char) : List Char :=
  if v.head? = some '"' ∧ v.getLast? = some '"' then v.tail.dropLast else v

/-- `parseContentType`, basemessage.cpp 69-92. -/
def parseContentType (known : List Char → Bool) (m : Msg) (e : Option PErr) (v : List Char) :
    Msg × Option PErr :=
  let els := splitAt' ';' (unquote v)
  let r := els.tail.foldl (typeElement known) (none, e)
  ({ m with mimeType := els.headD [], codec := r.1.getD defaultCharset }, r.2)

/-- One header line, basemessage.cpp 120-133. -/
def headerLine (known : List Char → Bool) (m : Msg) (e : Option PErr) (line : List Char) :
    Msg × Option PErr :=
  match splitField line with
  | none => (m, e)
  | some (n, v) =>
    if trimmed n = contentLengthName then parseContentLength m e (trimmed v)
    else if trimmed n = contentTypeName then parseContentType known m e (trimmed v)
    else (m, e)

/-- What QBuffer::readLine() returns until the buffer is at its end: the text up to and including
    the next newline, or up to the end. -/
def linesOf : List Char → List (List Char)
  | [] => []
  | c :: cs =>
    if c = '\n' then [c] :: linesOf cs
    else match linesOf cs with
      | [] => [[c]]
      | l :: ls => (c :: l) :: ls

/-- The loop of BaseMessage::parse, basemessage.cpp 113-134, over the lines that are in the buffer.
    `some (n, m)` if the end of the header is there: `n` bytes were read. The second component is
    `parseError`. -/
def headerLoop (known : List Char → Bool) (m : Msg) (e : Option PErr) (n : Nat) :
    List (List Char) → Option (Nat × Msg) × Option PErr
  | [] => (none, e)
  | l :: ls =>
    if l = headerSeparator then (some (n + l.length, m), e)
    else headerLoop known (headerLine known m e l).1 (headerLine known m e l).2 (n + l.length) ls

/-- A QBuffer: its bytes and its position. -/
structure Buf where
  data : List Char := []
  pos : Nat := 0
  deriving DecidableEq

/-- `data->read(n)`. -/
def Buf.read (b : Buf) (n : Int) : List Char × Buf :=
  ((b.data.drop b.pos).take n.toNat, { b with pos := min b.data.length (b.pos + n.toNat) })

/-- `isValid`, basemessage.cpp 155-158. -/
def Msg.isValid (m : Msg) : Bool := decide (0 ≤ m.contentLength)

/-- `isComplete`, basemessage.cpp 147-153. -/
def Msg.isComplete (m : Msg) : Bool :=
  m.isValid && decide (m.contentLength ≤ m.content.length)

/-- BaseMessage::parse, basemessage.cpp 104-139. -/
def parse (known : List Char → Bool) (b : Buf) (m : Msg) : Buf × Msg × Option PErr :=
  if m.isValid then
    let (c, b') := b.read (m.contentLength - m.content.length)
    (b', { m with content := m.content ++ c }, none)
  else
    match headerLoop known m none 0 (linesOf (b.data.drop b.pos)) with
    | (some (n, m'), e) =>
      let b' := { b with pos := b.pos + n }
      if m'.isValid then
        let (c, b'') := b'.read m'.contentLength
        (b'', { m' with content := c }, e)
      else (b', m', e)
    | (none, e) => (b, {}, e)

/-- What the server does with what it receives: it handles a message, or it sends the error response
    of lspserver.cpp 248. -/
inductive Event where
  | message (content codec : List Char)
  | parseError (e : PErr)
  deriving DecidableEq

/-- The members of LspServer::Private that are used by handleIncomingData(), lspserver.cpp 193-194;
    `pending` says that the function is about to be called again (line 256), rather than when the
    socket has new data. -/
structure Rx where
  buf : Buf := {}
  msg : Msg := {}
  pending : Bool := false
  deriving DecidableEq

/-- Writing to the buffer. It is opened with the flag Append (lspserver.cpp 236). With `appends` this
    flag lets every write go to the end of the buffer; without, it only determines the position that
    the buffer has when it is opened, and a write replaces what is behind the current position. -/
def Buf.write (appends : Bool) (b : Buf) (x : List Char) : Buf :=
  if appends then { b with data := b.data ++ x }
  else { b with data := b.data.take b.pos ++ x ++ b.data.drop (b.pos + x.length) }

/-- `handleIncomingData`, lspserver.cpp 240-258, for the bytes `x` that `readAll()` returns. The
    position is kept by `seek(pos)`. The call of the function at its end is left to the caller
    (`pending`); that the socket is closed by the message "exit" is not looked at here. -/
def receive (appends : Bool) (known : List Char → Bool) (s : Rx) (x : List Char) : Rx × List Event :=
  let b := s.buf.write appends x
  match parse known b s.msg with
  | (b', m', some e) => ({ buf := b', msg := m', pending := false }, [.parseError e])
  | (b', m', none) =>
    if m'.isComplete then
      ({ buf := { data := b'.data.drop b'.pos, pos := 0 }, msg := {}, pending := true },
       [.message m'.content m'.codec])
    else ({ buf := b', msg := m', pending := false }, [])

/-- Any number of calls of handleIncomingData(), which read `xs`. Those that follow a handled message
    (`pending`) read what has arrived in the meantime, possibly nothing. -/
def receiveAll (appends : Bool) (known : List Char → Bool) : Rx → List (List Char) → Rx × List Event
  | s, [] => (s, [])
  | s, x :: xs =>
    let r := receive appends known s x
    let q := receiveAll appends known r.1 xs
    (q.1, r.2 ++ q.2)

/-- `lengthHeader` and `header`, basemessage.cpp 160-178, for the messages that the server sends
    (`toBaseMessage()`, jsonrpcmessages.h 114-115): default type and codec. Followed by the content,
    lspserver.cpp 303-308. -/
def sent (content : List Char) : List Char :=
  contentLengthName ++ [':', ' '] ++ Digits.number content.length ++ headerSeparator
    ++ headerSeparator ++ content

end Verif.Lsp
