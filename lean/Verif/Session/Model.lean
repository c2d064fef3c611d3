import Verif.Common.Stream
import Verif.Common.Digits

/-
The session protocol: src/app/qbs/sessionpacket.cpp and sessionpacketreader.cpp.
Not modelled: JSON and Base64 (Qt); a packet's payload is an arbitrary byte sequence.
-/

namespace Verif.Session

open Verif.DS

/-- `packetStart`, sessionpacket.cpp:53: "qbsmsg:". -/
def packetStart : Bytes := [0x71, 0x62, 0x73, 0x6d, 0x73, 0x67, 0x3a]

/-- QByteArray::indexOf(pattern). -/
def indexOf (pat : Bytes) : Bytes → Option Nat
  | [] => if pat = [] then some 0 else none
  | c :: cs => if pat.isPrefixOf (c :: cs) then some 0 else (indexOf pat cs).map (· + 1)

/-- QByteArray::number(n) for n ≥ 0. -/
def number (n : Nat) : Bytes := (Digits.number n).map fun c => UInt8.ofNat c.toNat

/-- SessionPacket::createPacket, sessionpacket.cpp:92-97, for the encoded payload. -/
def createPacket (payload : Bytes) : Bytes :=
  packetStart ++ number payload.length ++ [0x0a] ++ payload

inductive Status where
  | incomplete | complete | invalid
  deriving DecidableEq, Repr

/-- SessionPacket's members (sessionpacket.h:63-64) and the reader's `incomingData`. -/
structure St where
  expected : Int := -1
  payload : Bytes := []
  incoming : Bytes := []
  deriving DecidableEq, Repr

/-- sessionpacket.cpp:75-79. (The assertion on line 76 is `bytesToAdd >= 0`.) -/
def addPayload (s : St) : Status × St :=
  let bytesToAdd := s.expected - s.payload.length
  if bytesToAdd < 0 then (.invalid, s)
  else
    let s' := { s with payload := s.payload ++ s.incoming.take bytesToAdd.toNat,
                       incoming := s.incoming.drop bytesToAdd.toNat }
    (if (s'.payload.length : Int) = s'.expected then .complete else .incomplete, s')

/-- SessionPacket::parseInput, sessionpacket.cpp:55-80. `toInt` is QByteArray::toInt, `none` if it
    is not a number that fits into an `int`. -/
def parseInput (toInt : Bytes → Option Int) (s : St) : Status × St :=
  if s.expected = -1 then
    match indexOf packetStart s.incoming with
    | none => (.incomplete, s)
    | some packetStartOffset =>
      let numberOffset := packetStartOffset + packetStart.length
      match indexOf [0x0a] (s.incoming.drop numberOffset) with
      | none => (.incomplete, s)
      | some len =>
        match toInt ((s.incoming.drop numberOffset).take len) with
        | none => (.invalid, s)
        | some payloadLen =>
          if payloadLen < 0 then (.invalid, s)
          else addPayload { s with expected := payloadLen,
                                   incoming := s.incoming.drop (numberOffset + len + 1) }
  else addPayload s

structure Reader where
  st : St := {}
  out : List Bytes := []      -- payloads of the packets received, in order
  error : Bool := false       -- "Received invalid input." was reported
  deriving DecidableEq, Repr

/-- The loop in SessionPacketReader::start, sessionpacketreader.cpp:76-87, with retrievePacket
    (sessionpacket.cpp:83-90). -/
def loop (toInt : Bytes → Option Int) : Nat → Reader → Reader
  | 0, r => r
  | fuel + 1, r =>
    if r.st.incoming = [] then r
    else
      match parseInput toInt r.st with
      | (.invalid, s) => { r with st := s, error := true }
      | (.complete, s) =>
        loop toInt fuel { r with st := { s with payload := [], expected := -1 },
                                 out := r.out ++ [s.payload] }
      | (.incomplete, s) => { r with st := s }

/-- Data arrives, sessionpacketreader.cpp:70-88. Every round of the loop that does not end it
    consumes input. -/
def dataAvailable (toInt : Bytes → Option Int) (r : Reader) (data : Bytes) : Reader :=
  loop toInt ((r.st.incoming ++ data).length + 1)
    { r with st := { r.st with incoming := r.st.incoming ++ data } }

def reader (toInt : Bytes → Option Int) (chunks : List Bytes) : Reader :=
  chunks.foldl (dataAvailable toInt) {}

end Verif.Session
