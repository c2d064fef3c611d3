import Verif.Lsp.Frame

/-
The base protocol of the language server protocol: a message is a header and a content. The header
has fields `name: value`, each ended by CR LF, and ends with an empty line. The field Content-Length
has the number of the bytes of the content.
-/

namespace Verif.Lsp

/-- A header field of a client, besides Content-Length. -/
inductive Field where
  /-- A field that the server does not know. -/
  | other (name value : List Char)
  /-- The content type with a charset. -/
  | type (mime charset : List Char)

def Field.text : Field → List Char
  | .other n v => n ++ ": ".toList ++ v ++ "\r\n".toList
  | .type m c => "Content-Type: ".toList ++ m ++ "; charset=".toList ++ c ++ "\r\n".toList

/-- A letter, a digit or a sign that has no meaning in the header. -/
def Plain (c : Char) : Prop :=
  c ≠ ' ' ∧ c ≠ '\t' ∧ c ≠ '\n' ∧ c ≠ '\r' ∧ c ≠ '\x0b' ∧ c ≠ '\x0c' ∧ c ≠ ':' ∧ c ≠ ';' ∧
  c ≠ '=' ∧ c ≠ '"'

/-- A well-formed field: the name of a field is a word; a value has no line break; the content type
    has a charset that exists. -/
def Field.Ok (known : List Char → Bool) : Field → Prop
  | .other n v => (∀ c ∈ n, Plain c) ∧ n ≠ "Content-Length".toList ∧ n ≠ "Content-Type".toList ∧
      '\n' ∉ v
  | .type m c => (∀ x ∈ m, Plain x) ∧ (∀ x ∈ c, Plain x) ∧ m ≠ [] ∧ c ≠ [] ∧ known c = true

/-- A message of a client: the fields before and behind Content-Length, and the content. -/
structure Frame where
  before : List Field
  behind : List Field
  content : List Char

/-- The header with its last line. -/
def Frame.header (f : Frame) : List Char :=
  (f.before.map Field.text).flatten
    ++ "Content-Length: ".toList ++ Digits.number f.content.length ++ "\r\n".toList
    ++ (f.behind.map Field.text).flatten ++ "\r\n".toList

/-- The bytes of a message. -/
def Frame.text (f : Frame) : List Char := f.header ++ f.content

/-- The charset of a message: the one of its (last) content type. -/
def Frame.charset (f : Frame) : List Char :=
  (f.before ++ f.behind).foldl (fun c fl => match fl with
    | .other _ _ => c
    | .type _ c' => c') "utf-8".toList

/-- A message that can be sent: its fields are fine and its length is an `int`. -/
def Frame.Ok (known : List Char → Bool) (f : Frame) : Prop :=
  (∀ x ∈ f.before, x.Ok known) ∧ (∀ x ∈ f.behind, x.Ok known) ∧ f.content.length < 2 ^ 31

/-- The bytes of several messages. -/
def stream (fs : List Frame) : List Char := (fs.map Frame.text).flatten

/-- What the server is to handle for a message. -/
def Frame.event (f : Frame) : Event := .message f.content f.charset

/-- A handled message, not an error response. -/
def Event.isMessage : Event → Bool
  | .message _ _ => true
  | .parseError _ => false

/-- Only the first `n` bytes of the messages have arrived, and this is in the middle of a header. -/
def InHeader (fs : List Frame) (n : Nat) : Prop :=
  ∃ done f rest, fs = done ++ f :: rest ∧
    (stream done).length < n ∧ n < (stream done).length + f.header.length

end Verif.Lsp
