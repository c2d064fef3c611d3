import Verif.Common.Stream

/-
The protocol between qbs and its process launcher:
src/lib/corelib/tools/launcherpackets.{h,cpp}, launchersocket.cpp and
src/libexec/qbs_processlauncher/launchersockethandler.cpp.
64 bit platform: `quintptr` has 8 bytes.
-/

namespace Verif.Launcher

open Verif.DS

/-- The packets, launcherpackets.h:97-170. Enum values are numbers, strings are UTF-16. -/
inductive Packet where
  | shutdown
  | startProcess (token : Nat) (command : QStr) (arguments : List QStr) (workingDir : QStr)
      (env : List QStr)
  | stopProcess (token : Nat)
  | processError (token : Nat) (error : Nat) (errorString : QStr)
  | processFinished (token : Nat) (errorString : QStr) (stdOut stdErr : QBytes)
      (exitStatus error : Nat) (exitCode : Int)
  deriving DecidableEq, Repr

/-- LauncherPacketType, launcherpackets.h:53-55. -/
def Packet.type : Packet → Nat
  | .shutdown => 0
  | .startProcess .. => 1
  | .stopProcess _ => 2
  | .processError .. => 3
  | .processFinished .. => 4

def Packet.token : Packet → Nat
  | .shutdown => 0
  | .startProcess t .. => t
  | .stopProcess t => t
  | .processError t .. => t
  | .processFinished t .. => t

/-- The `doSerialize` functions, launcherpackets.cpp:73-76, 89-92, 105-108, 124-129, 145. -/
def Packet.payload : Packet → Bytes
  | .shutdown => []
  | .startProcess _ c a w e => putStr c ++ putStrs a ++ putStr w ++ putStrs e
  | .stopProcess _ => []
  | .processError _ e s => putU8 e ++ putStr s
  | .processFinished _ s o e x r c =>
      putStr s ++ putBytes o ++ putBytes e ++ putU8 x ++ putU8 r ++ putI32 c

/-- LauncherPacket::serialize, launcherpackets.cpp:50-59: the size is written last, over the
    placeholder at the start; it does not count itself. -/
def Packet.serialize (p : Packet) : Bytes :=
  let body := putU8 p.type ++ putU64 p.token ++ p.payload
  putI32 body.length ++ body

/-- LauncherPacket::extractPacket, launcherpackets.h:86-91, with the `doDeserialize` functions,
    launcherpackets.cpp:78-81, 94-97, 110-116, 131-141, 146. `none`: the data is too short or
    corrupt. (The code ignores the state of the stream and leaves the members at defaults.) -/
def extract (type token : Nat) (data : Bytes) : Option Packet :=
  match type with
  | 0 => some .shutdown
  | 1 => do
    let (c, r) ← getStr data
    let (a, r) ← getStrs r
    let (w, r) ← getStr r
    let (e, _) ← getStrs r
    return .startProcess token c a w e
  | 2 => some (.stopProcess token)
  | 3 => do
    let (e, r) ← getU8 data
    let (s, _) ← getStr r
    return .processError token e s
  | 4 => do
    let (s, r) ← getStr data
    let (o, r) ← getBytes r
    let (e, r) ← getBytes r
    let (x, r) ← getU8 r
    let (err, r) ← getU8 r
    let (c, _) ← getI32 r
    return .processFinished token s o e x err c
  | _ => none

/-- Outcome of `PacketParser::parse`. -/
inductive Parsed where
  | incomplete                                      -- returns false
  | invalid (size : Int)                            -- throws InvalidPacketSizeException
  | packet (type token : Nat) (data : Bytes)        -- returns true
  deriving DecidableEq, Repr

/-- `stream >> x` for a `k` byte unsigned number. If there is not enough data the value is 0 and the
    data there was is gone. (Only reached after an invalid size, see `parse`.) -/
def readNum (k : Nat) (buf : Bytes) : Nat × Bytes :=
  match getBE k buf with
  | some p => p
  | none => (0, [])

/-- `commonPayloadSize`, launcherpackets.cpp:154. -/
def commonPayloadSize : Int := 9

/-- PacketParser::parse, launcherpackets.cpp:161-170: the part after the size is known.
    `QIODevice::read` of a negative amount reads nothing. -/
def parseBody (size : Int) (buf : Bytes) : Parsed × Int × Bytes :=
  if (buf.length : Int) < size then (.incomplete, size, buf)
  else
    let (type, r1) := readNum 1 buf
    let (token, r2) := readNum 8 r1
    let n := (size - commonPayloadSize).toNat
    (.packet type token (r2.take n), -1, r2.drop n)

/-- PacketParser::parse, launcherpackets.cpp:152-171. The state is `m_sizeOfNextPacket` and what the
    device has to offer; the last two components of the result are the new state. Note that the
    invalid size is kept when the exception is thrown. -/
def parse (size : Int) (buf : Bytes) : Parsed × Int × Bytes :=
  if size = -1 then
    match getI32 buf with
    | none => (.incomplete, size, buf)
    | some (n, r) => if n < commonPayloadSize then (.invalid n, n, r) else parseBody n r
  else parseBody size buf

/-- What a receiver does with a packet of a given type. -/
inductive Reaction where
  | deliver     -- pass on, then go on parsing
  | last        -- pass on, then disconnect from the socket
  | drop        -- report an error and disconnect from the socket
  | skip        -- log a warning and return
  deriving DecidableEq, Repr

/-- LauncherSocket::handleSocketDataAvailable, launchersocket.cpp:111-122. -/
def clientReact (type : Nat) : Reaction :=
  if type = 3 ∨ type = 4 then .deliver else .drop

/-- LauncherSocketHandler::handleSocketData, launchersockethandler.cpp:137-151. -/
def launcherReact (type : Nat) : Reaction :=
  if type = 1 ∨ type = 2 then .deliver else if type = 0 then .last else .skip

structure Receiver where
  size : Int := -1                          -- m_sizeOfNextPacket
  buf : Bytes := []                         -- what the socket has to offer
  connected : Bool := true                  -- signals of the socket are connected
  out : List (Nat × Nat × Bytes) := []      -- packets passed on, in order
  errors : List Int := []                   -- sizes complained about, newest first
  deriving Repr, DecidableEq

/-- launchersocket.cpp:102-125 (`dropOnInvalid` true: handleError disconnects) and
    launchersockethandler.cpp:126-152 (false: only a warning is logged). The recursive call is
    cut off after `fuel` packets; `drain_enough` shows that the fuel `receive` gives is enough. -/
def drain (react : Nat → Reaction) (dropOnInvalid : Bool) : Nat → Receiver → Receiver
  | 0, s => s
  | fuel + 1, s =>
    match parse s.size s.buf with
    | (.incomplete, n, b) => { s with size := n, buf := b }
    | (.invalid e, n, b) =>
      { s with size := n, buf := b, errors := e :: s.errors,
               connected := s.connected && !dropOnInvalid }
    | (.packet ty tok d, n, b) =>
      match react ty with
      | .deliver => drain react dropOnInvalid fuel
          { s with size := n, buf := b, out := s.out ++ [(ty, tok, d)] }
      | .last => { s with size := n, buf := b, out := s.out ++ [(ty, tok, d)], connected := false }
      | .drop => { s with size := n, buf := b, connected := false }
      | .skip => { s with size := n, buf := b }

/-- A chunk of data arrives: `readyRead` is emitted if the receiver still listens. -/
def receive (react : Nat → Reaction) (dropOnInvalid : Bool) (s : Receiver) (chunk : Bytes) :
    Receiver :=
  if s.connected then
    drain react dropOnInvalid ((s.buf ++ chunk).length + 2) { s with buf := s.buf ++ chunk }
  else s

/-- qbs listening to the launcher. -/
def client (chunks : List Bytes) : Receiver := chunks.foldl (receive clientReact true) {}

/-- The launcher listening to qbs. -/
def launcher (chunks : List Bytes) : Receiver := chunks.foldl (receive launcherReact false) {}

/-- What the receivers do with the packets passed on: `LauncherPacket::extractPacket`. -/
def Receiver.packets (s : Receiver) : List (Option Packet) :=
  s.out.map fun (ty, tok, d) => extract ty tok d

end Verif.Launcher
