/-
Reading and writing files in scripts: the TextFile and BinaryFile services.

Sources modelled:
  src/lib/corelib/jsextensions/textfile.cpp 60-237
  src/lib/corelib/jsextensions/binaryfile.cpp 55-235

These services are thin layers over QFile and QTextCodec, so what these do is modelled as well, from
the documentation and source of Qt: the buffer for writing, text mode, the UTF-8 and UTF-16 codecs.

Simplifications: one file that is only used through one object at a time; bytes and code points are
numbers; the buffer for reading is left out; a disk that gets full is a bound on the size of the
file; invalid UTF-8 gives one replacement character per byte; UTF-16 is little endian and surrogates
are not put together again.
-/
namespace Verif.TextF

abbrev Bytes := List Nat
/-- Text: a list of code points. -/
abbrev Text := List Nat

/-- The file on disk; `limit` bounds its size. -/
structure Disk where
  bytes : Bytes
  limit : Option Nat
  deriving DecidableEq, Repr

/-- Put data into a file at a position; a gap is filled with zeros. -/
def splice (b : Bytes) (p : Nat) (x : Bytes) : Bytes :=
  if x = [] then b
  else b.take p ++ List.replicate (p - b.length) 0 ++ x ++ b.drop (p + x.length)

/-- How much of some data fits. -/
def fits (d : Disk) (p n : Nat) : Nat :=
  match d.limit with
  | none => n
  | some l => min n (l - p)

/-- The object for an open file: the modes, the buffer of data that is still to be written, and the
position at which it will be written. -/
structure Handle where
  readable : Bool
  writable : Bool
  append : Bool
  buf : Bytes
  pos : Nat
  deriving DecidableEq, Repr

structure St where
  disk : Disk
  handle : Option Handle
  deriving DecidableEq, Repr

/-- Writing to the operating system: what was written, or nothing at all.  The result is the number
of bytes. -/
def sysWrite (d : Disk) (h : Handle) (x : Bytes) : Disk × Handle × Nat :=
  let p := if h.append then d.bytes.length else h.pos
  let n := fits d p x.length
  ({ d with bytes := splice d.bytes p (x.take n) }, { h with pos := p + n }, n)

/-- QFileDevice::flush. -/
def flush (d : Disk) (h : Handle) : Disk × Handle × Bool :=
  if h.buf = [] then (d, h, true)
  else
    let (d', h', n) := sysWrite d h h.buf
    (d', { h' with buf := h.buf.drop n }, n == h.buf.length)

/-- QIODevice::write and QFileDevice::writeData, with a buffer of the given size.  The result is
`none` for -1. -/
def fileWrite (chunk : Nat) (d : Disk) (h : Handle) (x : Bytes) : Disk × Handle × Option Nat :=
  if h.writable = false then (d, h, none)
  else if h.buf.length + x.length > chunk then
    match flush d h with
    | (d', h', false) => (d', h', none)
    | (d', h', true) =>
      if x.length > chunk then
        let (d'', h'', n) := sysWrite d' h' x
        (d'', h'', if n = 0 then none else some n)
      else (d', { h' with buf := x }, some x.length)
  else (d, { h with buf := h.buf ++ x }, some x.length)

/-- QIODevice::close and QFileDevice::close: the buffer is written, whatever comes out of it. -/
def fileClose (d : Disk) (h : Handle) : Disk := (flush d h).1

/-- QFileDevice::pos. -/
def filePos (h : Handle) : Nat := h.pos + h.buf.length

/-- Opening: a file that is only written to is emptied, and appending starts at the end. -/
def fileOpen (d : Disk) (r w a : Bool) : Disk × Handle :=
  let w' := w || a
  let d' := if w' && !r && !a then { d with bytes := [] } else d
  (d', ⟨r, w', a, [], if a then d'.bytes.length else 0⟩)

/-- A line, with its end. -/
def takeLine : Bytes → Bytes
  | [] => []
  | b :: r => if b = 10 then [10] else b :: takeLine r

/-- QIODevice::readLine in text mode: the end of a line is made one character. -/
def textLine (l : Bytes) : Bytes :=
  if l.reverse.take 2 = [10, 13] then l.dropLast.dropLast ++ [10] else l

/-- QIODevice::readAll in text mode: there are no carriage returns. -/
def textAll (l : Bytes) : Bytes := l.filter (· ≠ 13)

/-! The codecs. -/

inductive Codec where
  | utf8 | utf16
  deriving DecidableEq, Repr

def enc8 (c : Nat) : Bytes :=
  if c < 128 then [c]
  else if c < 2048 then [192 + c / 64, 128 + c % 64]
  else if c < 65536 then [224 + c / 4096, 128 + c / 64 % 64, 128 + c % 64]
  else [240 + c / 262144, 128 + c / 4096 % 64, 128 + c / 64 % 64, 128 + c % 64]

def cont (b : Nat) : Bool := 128 ≤ b && b < 192

/-- Decoding UTF-8; the first argument is at least the length. -/
def dec8 : Nat → Bytes → Text
  | 0, _ => []
  | _, [] => []
  | f + 1, b :: r =>
    if b < 128 then b :: dec8 f r
    else if 192 ≤ b ∧ b < 224 then
      match r with
      | c1 :: r' => if cont c1 then ((b - 192) * 64 + (c1 - 128)) :: dec8 f r' else 65533 :: dec8 f r
      | _ => 65533 :: dec8 f r
    else if 224 ≤ b ∧ b < 240 then
      match r with
      | c1 :: c2 :: r' =>
        if cont c1 && cont c2 then
          ((b - 224) * 4096 + (c1 - 128) * 64 + (c2 - 128)) :: dec8 f r'
        else 65533 :: dec8 f r
      | _ => 65533 :: dec8 f r
    else if 240 ≤ b ∧ b < 248 then
      match r with
      | c1 :: c2 :: c3 :: r' =>
        if cont c1 && cont c2 && cont c3 then
          ((b - 240) * 262144 + (c1 - 128) * 4096 + (c2 - 128) * 64 + (c3 - 128)) :: dec8 f r'
        else 65533 :: dec8 f r
      | _ => 65533 :: dec8 f r
    else 65533 :: dec8 f r

def bom : Nat := 65279

/-- A byte order mark at the start is not part of the text. -/
def stripBom : Text → Text
  | [] => []
  | c :: r => if c = bom then r else c :: r

def units (c : Nat) : List Nat :=
  if c < 65536 then [c] else [55296 + (c - 65536) / 1024, 56320 + (c - 65536) % 1024]

def dec16 : Bytes → Text
  | a :: b :: r => (a + 256 * b) :: dec16 r
  | _ => []

/-- QTextCodec::fromUnicode. -/
def encode : Codec → Text → Bytes
  | .utf8, t => t.flatMap enc8
  | .utf16, t => ((bom :: t.flatMap units)).flatMap (fun u => [u % 256, u / 256])

/-- QTextCodec::toUnicode. -/
def decode : Codec → Bytes → Text
  | .utf8, b => stripBom (dec8 b.length b)
  | .utf16, b => stripBom (dec16 b)

/-- QTextCodec::codecForName. -/
def codecFor (name : Text) : Option Codec :=
  if name = [85, 84, 70, 45, 56] then some .utf8
  else if name = [85, 84, 70, 45, 49, 54] then some .utf16
  else none

/-! TextFile. -/

/-- The state of a TextFile object: the file and the codec. -/
structure TSt where
  st : St
  codec : Codec
  deriving DecidableEq, Repr

/-- The constructor (textfile.cpp 154-170): an unknown codec is replaced. -/
def tOpen (d : Disk) (r w a : Bool) (codec : Text) : TSt :=
  let (d', h) := fileOpen d r w a
  ⟨⟨d', some h⟩, (codecFor codec).getD .utf8⟩

inductive TOp where
  | close | setCodec (name : Text) | readLine | readAll | atEof | truncate
  | write (t : Text) | writeLine (t : Text)
  deriving DecidableEq, Repr

/-- What a method returns, or that it throws. -/
inductive Res where
  | unit | text (t : Text) | bool (b : Bool) | bytes (b : Bytes) | num (n : Nat) | error
  deriving DecidableEq, Repr

/-- The methods (textfile.cpp 172-237). -/
def tStep (chunk : Nat) (s : TSt) (op : TOp) : TSt × Res :=
  match s.st.handle with
  | none => (s, .error)
  | some h =>
    let d := s.st.disk
    match op with
    | .close => ({ s with st := ⟨fileClose d h, none⟩ }, .unit)
    | .setCodec n => ({ s with codec := (codecFor n).getD s.codec }, .unit)
    | .readLine =>
      if h.readable = false then (s, .text [])
      else
        let (d, h, _) := flush d h
        let l := takeLine (d.bytes.drop h.pos)
        let t := decode s.codec (textLine l)
        let t := if t.getLast? = some 10 then t.dropLast else t
        ({ s with st := ⟨d, some { h with pos := h.pos + l.length }⟩ }, .text t)
    | .readAll =>
      if h.readable = false then (s, .text [])
      else
        let (d, h, _) := flush d h
        let l := d.bytes.drop h.pos
        ({ s with st := ⟨d, some { h with pos := h.pos + l.length }⟩ }, .text (decode s.codec (textAll l)))
    | .atEof =>
      let (d, h, ok) := flush d h
      ({ s with st := ⟨d, some h⟩ }, .bool (ok && d.bytes.length ≤ h.pos))
    | .truncate =>
      if h.writable = false then (s, .unit)
      else
        let (d, h, _) := flush d h
        ({ s with st := ⟨{ d with bytes := [] }, some { h with pos := 0 }⟩ }, .unit)
    | .write t =>
      let (d, h, _) := fileWrite chunk d h (encode s.codec t)
      ({ s with st := ⟨d, some h⟩ }, .unit)
    | .writeLine t =>
      let (d, h, _) := fileWrite chunk d h (encode s.codec t)
      let (d, h, _) := fileWrite chunk d h [10]
      ({ s with st := ⟨d, some h⟩ }, .unit)

def tRun (chunk : Nat) (s : TSt) : List TOp → TSt × List Res
  | [] => (s, [])
  | o :: os =>
    let (s', r) := tStep chunk s o
    let (s'', rs) := tRun chunk s' os
    (s'', r :: rs)

/-- The usual loop in scripts: `while (!f.atEof()) lines.push(f.readLine())`.  The first argument
bounds the number of rounds. -/
def readLines (chunk : Nat) : Nat → TSt → List Text
  | 0, _ => []
  | f + 1, s =>
    match tStep chunk s .atEof with
    | (s', .bool false) =>
      match tStep chunk s' .readLine with
      | (s'', .text t) => t :: readLines chunk f s''
      | _ => []
    | _ => []

/-! BinaryFile. -/

inductive BOp where
  | close | atEof | size | resize (n : Nat) | pos | seek (n : Nat) | read (n : Nat) | write (x : Bytes)
  deriving DecidableEq, Repr

/-- The methods (binaryfile.cpp 165-235). -/
def bStep (chunk : Nat) (s : St) (op : BOp) : St × Res :=
  match s.handle with
  | none => (s, .error)
  | some h =>
    let d := s.disk
    match op with
    | .close => (⟨fileClose d h, none⟩, .unit)
    | .atEof =>
      let (d, h, ok) := flush d h
      (⟨d, some h⟩, .bool (ok && d.bytes.length ≤ h.pos))
    | .size =>
      let (d, h, ok) := flush d h
      (⟨d, some h⟩, .num (if ok then d.bytes.length else 0))
    | .resize n =>
      if h.writable = false then (s, .error)
      else
        match flush d h with
        | (d, h, false) => (⟨d, some h⟩, .error)
        | (d, h, true) =>
          (⟨{ d with bytes := d.bytes.take n ++ List.replicate (n - d.bytes.length) 0 },
            some { h with pos := min h.pos n }⟩, .unit)
    | .pos => (s, .num (filePos h))
    | .seek n =>
      match flush d h with
      | (d, h, false) => (⟨d, some h⟩, .error)
      | (d, h, true) => (⟨d, some { h with pos := n }⟩, .unit)
    | .read n =>
      if h.readable = false then (s, .bytes [])
      else
        match flush d h with
        | (d, h, false) => (⟨d, some h⟩, .error)
        | (d, h, true) =>
          let x := (d.bytes.drop h.pos).take n
          (⟨d, some { h with pos := h.pos + x.length }⟩, .bytes x)
    | .write x =>
      match fileWrite chunk d h x with
      | (d, h, none) => (⟨d, some h⟩, .error)
      | (d, h, some _) => (⟨d, some h⟩, .unit)

def bRun (chunk : Nat) (s : St) : List BOp → St × List Res
  | [] => (s, [])
  | o :: os =>
    let (s', r) := bStep chunk s o
    let (s'', rs) := bRun chunk s' os
    (s'', r :: rs)

/-- The constructor (binaryfile.cpp 142-163): the mode is 1, 2 or 3. -/
def bOpen (d : Disk) (mode : Nat) : Option St :=
  if mode = 3 then some (let p := fileOpen d true true false; ⟨p.1, some p.2⟩)
  else if mode = 1 then some (let p := fileOpen d true false false; ⟨p.1, some p.2⟩)
  else if mode = 2 then some (let p := fileOpen d false true false; ⟨p.1, some p.2⟩)
  else none

end Verif.TextF
