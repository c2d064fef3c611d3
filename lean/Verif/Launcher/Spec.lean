import Verif.Launcher.Model

/-
What a receiver of a packet stream is to deliver, independently of any parser.
-/

namespace Verif.Launcher

open Verif.DS

/-- The bytes the peer sends. -/
def wire (ps : List Packet) : Bytes := (ps.map Packet.serialize).flatten

/-- The packets that are completely contained in the first `n` bytes of `wire ps`. -/
def complete : List Packet → Nat → List Packet
  | [], _ => []
  | p :: ps, n =>
    if p.serialize.length ≤ n then p :: complete ps (n - p.serialize.length) else []

/-- The values of the C++ types: enums fit in a byte, tokens in 64 bits, the exit code in 32 bits,
    strings and byte arrays in their length fields, the whole packet in an `int`. -/
def Fits (p : Packet) : Prop :=
  p.token < 2 ^ 64 ∧ p.payload.length + 9 < 2 ^ 31 ∧
  match p with
  | .shutdown | .stopProcess _ => True
  | .startProcess _ c a w e => StrOk c ∧ StrsOk a ∧ StrOk w ∧ StrsOk e
  | .processError _ e s => e < 256 ∧ StrOk s
  | .processFinished _ s o e x r c =>
      StrOk s ∧ BytesOk o ∧ BytesOk e ∧ x < 256 ∧ r < 256 ∧ IsI32 c

/-- Packets qbs gets from the launcher. -/
def ForClient : Packet → Prop
  | .processError .. | .processFinished .. => True
  | _ => False

/-- Packets the launcher gets from qbs, except for the final `shutdown`. -/
def ForLauncher : Packet → Prop
  | .startProcess .. | .stopProcess _ => True
  | _ => False

end Verif.Launcher
