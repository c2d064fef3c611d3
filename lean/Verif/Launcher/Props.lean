import Verif.Launcher.Spec
import Verif.Common.Snoc

/-
C09: launcher packets survive any chunking of the byte stream.
-/

namespace Verif.Launcher

open Verif.DS

/-- Every packet is recovered from its type, token and payload. -/
theorem C09_payload_round_trip (p : Packet) (h : Fits p) :
    extract p.type p.token p.payload = some p := by
  obtain ⟨_, _, h⟩ := h
  cases p with
  | shutdown => rfl
  | stopProcess t => rfl
  | startProcess t c a w e =>
    obtain ⟨h1, h2, h3, h4⟩ := h
    simp only [Packet.type, Packet.token, Packet.payload, extract, List.append_assoc]
    rw [getStr_putStr h1]
    simp only [Option.bind_eq_bind, Option.bind_some]
    rw [getStrs_putStrs h2]
    simp only [Option.bind_some]
    rw [getStr_putStr h3]
    simp only [Option.bind_some]
    have := getStrs_putStrs h4 []
    rw [List.append_nil] at this
    rw [this]
    rfl
  | processError t e s =>
    obtain ⟨h1, h2⟩ := h
    simp only [Packet.type, Packet.token, Packet.payload, extract]
    rw [getU8_putU8 h1]
    simp only [Option.bind_eq_bind, Option.bind_some]
    have := getStr_putStr h2 []
    rw [List.append_nil] at this
    rw [this]
    rfl
  | processFinished t s o e x r c =>
    obtain ⟨h1, h2, h3, h4, h5, h6⟩ := h
    simp only [Packet.type, Packet.token, Packet.payload, extract, List.append_assoc]
    rw [getStr_putStr h1]
    simp only [Option.bind_eq_bind, Option.bind_some]
    rw [getBytes_putBytes h2]
    simp only [Option.bind_some]
    rw [getBytes_putBytes h3]
    simp only [Option.bind_some]
    rw [getU8_putU8 h4]
    simp only [Option.bind_some]
    rw [getU8_putU8 h5]
    simp only [Option.bind_some]
    have := getI32_putI32 h6 []
    rw [List.append_nil] at this
    rw [this]
    rfl

/-! ### One packet -/

theorem type_lt (p : Packet) : p.type < 256 := by cases p <;> simp [Packet.type]

def Packet.body (p : Packet) : Bytes := putU8 p.type ++ putU64 p.token ++ p.payload

theorem serialize_eq (p : Packet) : p.serialize = putI32 p.body.length ++ p.body := rfl

theorem body_length (p : Packet) : p.body.length = p.payload.length + 9 := by
  simp [Packet.body, putU8, putU64, putBE_length]; omega

theorem putI32_length (x : Int) : (putI32 x).length = 4 := putBE_length _ _

theorem serialize_length (p : Packet) : p.serialize.length = p.payload.length + 13 := by
  rw [serialize_eq, List.length_append, putI32_length, body_length]; omega

theorem readNum_append (k n : Nat) (r : Bytes) (h : n < 256 ^ k) :
    readNum k (putBE k n ++ r) = (n, r) := by
  rw [readNum, getBE_putBE _ _ _ h]

theorem parseBody_packet (p : Packet) (h : Fits p) (r : Bytes) :
    parseBody p.body.length (p.body ++ r) = (.packet p.type p.token p.payload, -1, r) := by
  unfold parseBody
  rw [if_neg (by simp; omega)]
  have e : p.body ++ r = putU8 p.type ++ (putU64 p.token ++ (p.payload ++ r)) := by
    simp [Packet.body]
  rw [e, putU8, readNum_append 1 p.type _ (by simpa using type_lt p)]
  simp only
  rw [putU64, readNum_append 8 p.token _ (by simpa using h.1)]
  simp only
  have : ((p.body.length : Int) - commonPayloadSize).toNat = p.payload.length := by
    rw [body_length]; simp [commonPayloadSize]
  rw [this]
  simp

theorem getI32_short {bs : Bytes} (h : bs.length < 4) : getI32 bs = none := by
  simp [getI32, getBE, takeN]; omega

/-- The bytes received and not yet consumed. -/
def unread (s : Receiver) : Bytes := if s.size = -1 then s.buf else putI32 s.size ++ s.buf

/-- Nothing has been consumed, or exactly a valid size field. -/
def SizeOk (s : Receiver) : Prop := s.size = -1 ∨ (9 ≤ s.size ∧ IsI32 s.size)

theorem isI32_body (p : Packet) (h : Fits p) : IsI32 (p.body.length : Int) := by
  have := h.2.1
  rw [body_length]; unfold IsI32; omega

theorem size_of_prefix {s : Receiver} {p : Packet} {r : Bytes} (hp : Fits p) (hs : SizeOk s)
    (hne : s.size ≠ -1) (h : putI32 s.size ++ s.buf = p.serialize ++ r) :
    s.size = p.body.length ∧ s.buf = p.body ++ r := by
  rw [serialize_eq, List.append_assoc] at h
  obtain ⟨h1, h2⟩ := List.append_inj h (by rw [putI32_length, putI32_length])
  refine ⟨?_, h2⟩
  rcases hs with hs | hs
  · exact absurd hs hne
  · have a := getI32_putI32 hs.2 []
    have b := getI32_putI32 (isI32_body p hp) []
    rw [h1, b] at a
    simp only [Option.some.injEq, Prod.mk.injEq, and_true] at a
    exact a.symm

/-- If the unread bytes start with a whole packet, `parse` yields it. -/
theorem parse_whole {s : Receiver} {p : Packet} {r : Bytes} (hp : Fits p) (hs : SizeOk s)
    (h : unread s = p.serialize ++ r) :
    parse s.size s.buf = (.packet p.type p.token p.payload, -1, r) := by
  unfold unread at h
  unfold parse
  split
  · rename_i hsz
    rw [if_pos hsz] at h
    rw [h, serialize_eq, List.append_assoc, getI32_putI32 (isI32_body p hp)]
    simp only
    rw [if_neg (by rw [body_length]; simp only [commonPayloadSize]; omega), parseBody_packet p hp]
  · rename_i hsz
    rw [if_neg hsz] at h
    obtain ⟨h1, h2⟩ := size_of_prefix hp hs hsz h
    rw [h1, h2, parseBody_packet p hp]

/-- If the unread bytes are a proper prefix of a packet, `parse` waits, and loses nothing. -/
theorem parse_part {s : Receiver} {p : Packet} {r : Bytes} (hp : Fits p) (hs : SizeOk s)
    (h : unread s ++ r = p.serialize) (hr : r ≠ []) :
    ∃ n b, parse s.size s.buf = (.incomplete, n, b) ∧
      SizeOk { s with size := n, buf := b } ∧ unread { s with size := n, buf := b } = unread s := by
  have hrl : 0 < r.length := List.length_pos_iff.mpr hr
  have hl := congrArg List.length h
  rw [List.length_append, serialize_length] at hl
  unfold unread at h hl ⊢
  by_cases hsz : s.size = -1
  · rw [if_pos hsz] at h hl
    by_cases h4 : s.buf.length < 4
    · refine ⟨s.size, s.buf, ?_, .inl hsz, ?_⟩
      · unfold parse; rw [if_pos hsz, getI32_short h4]
      · rfl
    · have : ∃ b, s.buf = putI32 p.body.length ++ b := by
        rw [serialize_eq] at h
        have := List.append_eq_append_iff.mp h
        rcases this with ⟨a, h1, h2⟩ | ⟨a, h1, h2⟩
        · have : a = [] := by
            have := congrArg List.length h1
            rw [List.length_append, putI32_length] at this
            exact List.length_eq_zero_iff.mp (by omega)
          subst this
          exact ⟨[], by simpa using h1.symm⟩
        · exact ⟨a, h1⟩
      obtain ⟨b, hb⟩ := this
      refine ⟨p.body.length, b, ?_, .inr ⟨by simp only [body_length]; omega, isI32_body p hp⟩, ?_⟩
      · unfold parse
        rw [if_pos hsz, hb, getI32_putI32 (isI32_body p hp)]
        simp only
        rw [if_neg (by rw [body_length]; simp only [commonPayloadSize]; omega)]
        unfold parseBody
        rw [if_pos]
        rw [hb, List.length_append, putI32_length] at hl
        rw [body_length]; omega
      · rw [if_pos hsz, hb]
        rw [if_neg (by simp only [body_length]; omega)]
  · rw [if_neg hsz] at h hl
    refine ⟨s.size, s.buf, ?_, hs, by rw [if_neg hsz]⟩
    unfold parse
    rw [if_neg hsz]
    unfold parseBody
    rw [if_pos]
    have : s.size = p.body.length := by
      rw [serialize_eq, List.append_assoc] at h
      obtain ⟨h1, _⟩ := List.append_inj h (by rw [putI32_length, putI32_length])
      rcases hs with hs | hs
      · exact absurd hs hsz
      · have a := getI32_putI32 hs.2 []
        have b := getI32_putI32 (isI32_body p hp) []
        rw [h1, b] at a
        simp only [Option.some.injEq, Prod.mk.injEq, and_true] at a
        exact a.symm
    rw [this, body_length]
    rw [List.length_append, putI32_length] at hl
    omega

/-- Nothing there: `parse` waits. -/
theorem parse_nothing {s : Receiver} (h : unread s = []) :
    s.size = -1 ∧ s.buf = [] ∧ parse s.size s.buf = (.incomplete, s.size, s.buf) := by
  unfold unread at h
  split at h
  · rename_i hs
    refine ⟨hs, h, ?_⟩
    rw [parse, if_pos hs, h, getI32_short (by simp)]
  · have := congrArg List.length h
    rw [List.length_append, putI32_length] at this
    simp at this

/-! ### A stream of packets -/

def view (p : Packet) : Nat × Nat × Bytes := (p.type, p.token, p.payload)

theorem wire_cons (p : Packet) (ps : List Packet) : wire (p :: ps) = p.serialize ++ wire ps := rfl

/-- One round of parsing, for a receiver that wants all these packets. -/
theorem drain_wire {react : Nat → Reaction} {d : Bool} (ps : List Packet)
    (hf : ∀ p ∈ ps, Fits p) (hr : ∀ p ∈ ps, react p.type = .deliver) :
    ∀ (fuel : Nat) (s : Receiver) (r : Bytes), SizeOk s → unread s ++ r = wire ps →
      (unread s).length < 13 * fuel →
      ∃ s', drain react d fuel s = s' ∧ SizeOk s' ∧
        s'.out = s.out ++ (complete ps (unread s).length).map view ∧
        unread s = wire (complete ps (unread s).length) ++ unread s' ∧
        s'.connected = s.connected ∧ s'.errors = s.errors := by
  induction ps with
  | nil =>
    intro fuel s r hs h hfu
    have hu : unread s = [] := (List.append_eq_nil_iff.mp h).1
    obtain ⟨h1, h2, h3⟩ := parse_nothing hu
    obtain ⟨fuel, rfl⟩ := Nat.exists_eq_succ_of_ne_zero (by omega : fuel ≠ 0)
    refine ⟨_, rfl, ?_⟩
    rw [drain, h3]
    exact ⟨hs, by simp [complete], by simp [wire, complete, unread], rfl, rfl⟩
  | cons p ps ih =>
    intro fuel s r hs h hfu
    obtain ⟨fuel, rfl⟩ := Nat.exists_eq_succ_of_ne_zero (by omega : fuel ≠ 0)
    have hp := hf p (by simp)
    rw [wire_cons] at h
    by_cases hc : p.serialize.length ≤ (unread s).length
    · have : ∃ t, unread s = p.serialize ++ t ∧ t ++ r = wire ps := by
        rcases List.append_eq_append_iff.mp h with ⟨a, h1, h2⟩ | ⟨a, h1, h2⟩
        · have : a = [] := by
            have := congrArg List.length h1
            rw [List.length_append] at this
            exact List.length_eq_zero_iff.mp (by omega)
          subst this
          exact ⟨[], by simpa using h1.symm, by simpa using h2⟩
        · exact ⟨a, h1, h2.symm⟩
      obtain ⟨t, h1, h2⟩ := this
      have hu : unread { s with size := -1, buf := t, out := s.out ++ [view p] } = t := by
        simp [unread]
      obtain ⟨s', e1, e2, e3, e4, e5, e6⟩ := ih (fun q hq => hf q (by simp [hq]))
        (fun q hq => hr q (by simp [hq])) fuel
        { s with size := -1, buf := t, out := s.out ++ [view p] } r (.inl rfl)
        (by rw [hu]; exact h2)
        (by rw [hu]; rw [h1, List.length_append, serialize_length] at hfu; omega)
      refine ⟨s', ?_, e2, ?_, ?_, e5, e6⟩
      · rw [drain, parse_whole hp hs h1]
        simp only [hr p (by simp)]
        exact e1
      · rw [e3, hu, complete, if_pos hc, h1]
        simp
      · rw [complete, if_pos hc, wire_cons, h1, List.append_assoc]
        rw [hu] at e4
        simp only [List.length_append, Nat.add_sub_cancel_left]
        rw [← e4]
    · have : ∃ t, unread s ++ t = p.serialize ∧ t ≠ [] := by
        rcases List.append_eq_append_iff.mp h with ⟨a, h1, h2⟩ | ⟨a, h1, h2⟩
        · refine ⟨a, h1.symm, ?_⟩
          rintro rfl
          rw [List.append_nil] at h1; rw [h1] at hc; exact hc (Nat.le_refl _)
        · rw [h1] at hc; simp at hc
      obtain ⟨t, h1, h2⟩ := this
      obtain ⟨n, b, h3, h4, h5⟩ := parse_part hp hs h1 h2
      refine ⟨_, rfl, ?_⟩
      rw [drain, h3]
      exact ⟨h4, by simp [complete, hc], by simp [wire, complete, hc, h5], rfl, rfl⟩

theorem complete_complete (ps : List Packet) (n : Nat) :
    ∃ qs, ps = complete ps n ++ qs ∧
      ∀ m, complete ps ((wire (complete ps n)).length + m) = complete ps n ++ complete qs m := by
  induction ps generalizing n with
  | nil => exact ⟨[], rfl, fun m => rfl⟩
  | cons p ps ih =>
    by_cases h : p.serialize.length ≤ n
    · obtain ⟨qs, h1, h2⟩ := ih (n - p.serialize.length)
      refine ⟨qs, by rw [complete, if_pos h, List.cons_append, ← h1], fun m => ?_⟩
      rw [complete, complete, if_pos h, wire_cons, List.length_append, if_pos (by omega)]
      rw [show p.serialize.length + (wire (complete ps (n - p.serialize.length))).length + m
        - p.serialize.length = (wire (complete ps (n - p.serialize.length))).length + m by omega, h2]
      rfl
    · refine ⟨p :: ps, by rw [complete, if_neg h]; rfl, fun m => ?_⟩
      rw [show complete (p :: ps) n = [] by rw [complete, if_neg h]]
      simp [wire]

/-- The receiver's state after any chunks that together are an initial part of the stream. -/
theorem receive_wire {react : Nat → Reaction} {d : Bool} (ps : List Packet)
    (hf : ∀ p ∈ ps, Fits p) (hr : ∀ p ∈ ps, react p.type = .deliver)
    (chunks : List Bytes) (r : Bytes) (h : chunks.flatten ++ r = wire ps) :
    ∃ s, chunks.foldl (receive react d) {} = s ∧ SizeOk s ∧ s.connected = true ∧ s.errors = [] ∧
      s.out = (complete ps chunks.flatten.length).map view ∧
      chunks.flatten = wire (complete ps chunks.flatten.length) ++ unread s := by
  induction chunks using Verif.snoc_induction generalizing r with
  | nil =>
    refine ⟨_, rfl, .inl rfl, rfl, rfl, ?_, ?_⟩
    · cases ps with
      | nil => rfl
      | cons p ps => simp [complete, serialize_length]
    · cases ps with
      | nil => rfl
      | cons p ps => simp [complete, serialize_length, wire, unread]
  | append_singleton cs c ih =>
    simp only [List.flatten_append, List.flatten_cons, List.flatten_nil, List.append_nil,
      List.append_assoc] at h ⊢
    obtain ⟨s, e1, e2, e3, e4, e5, e6⟩ := ih (c ++ r) h
    obtain ⟨qs, k1, k2⟩ := complete_complete ps cs.flatten.length
    generalize hq : complete ps cs.flatten.length = qs1 at *
    have hu : unread { s with buf := s.buf ++ c } = unread s ++ c := by
      unfold unread; simp only; split <;> simp
    have hw : unread s ++ c ++ r = wire qs := by
      rw [e6, k1] at h
      have : wire (qs1 ++ qs) = wire qs1 ++ wire qs := by simp [wire]
      rw [this, List.append_assoc] at h
      rw [List.append_assoc]
      exact List.append_cancel_left h
    obtain ⟨s', f1, f2, f3, f4, f5, f6⟩ := drain_wire (react := react) (d := d) qs
      (fun p hp => hf p (by rw [k1]; simp [hp])) (fun p hp => hr p (by rw [k1]; simp [hp]))
      ((s.buf ++ c).length + 2) { s with buf := s.buf ++ c } r e2 (by rw [hu]; exact hw)
      (by rw [hu]; unfold unread; split <;> simp [putI32_length] <;> omega)
    rw [hu] at f3 f4
    have hn : cs.flatten.length + c.length = (wire qs1).length + (unread s ++ c).length := by
      have := congrArg List.length e6
      simp only [List.length_append] at this ⊢
      omega
    refine ⟨s', ?_, f2, by rw [f5]; exact e3, by rw [f6]; exact e4, ?_, ?_⟩
    · rw [List.foldl_append, e1]
      rw [List.foldl_cons, List.foldl_nil, receive, if_pos e3]
      exact f1
    · rw [List.length_append, hn, k2, f3, e5]
      simp
    · rw [List.length_append, hn, k2]
      have : ∀ a b, wire (a ++ b) = wire a ++ wire b := by simp [wire]
      rw [this, List.append_assoc, ← f4, ← List.append_assoc, ← e6]

/-! ### The theorems -/

theorem react_client {p : Packet} (h : ForClient p) : clientReact p.type = .deliver := by
  cases p <;> simp [ForClient, clientReact, Packet.type] at *

theorem react_launcher {p : Packet} (h : ForLauncher p) : launcherReact p.type = .deliver := by
  cases p <;> simp [ForLauncher, launcherReact, Packet.type] at *

theorem complete_subset (ps : List Packet) (n : Nat) : ∀ p ∈ complete ps n, p ∈ ps := by
  obtain ⟨qs, h, _⟩ := complete_complete ps n
  intro p hp; rw [h]; simp [hp]

theorem packets_eq {s : Receiver} {ps : List Packet} (hf : ∀ p ∈ ps, Fits p) (n : Nat)
    (h : s.out = (complete ps n).map view) : s.packets = (complete ps n).map some := by
  rw [Receiver.packets, h, List.map_map]
  apply List.map_congr_left
  intro p hp
  exact C09_payload_round_trip p (hf p (complete_subset ps n p hp))

/-- C09, qbs as receiver: whatever packets the launcher sends and however the stream is cut into
    chunks, after each chunk exactly the packets that have arrived completely have been passed on,
    in order and unchanged, and no error has occurred. -/
theorem C09_client_any_chunking (ps : List Packet) (hf : ∀ p ∈ ps, Fits p)
    (hr : ∀ p ∈ ps, ForClient p) (chunks : List Bytes) (h : chunks.flatten <+: wire ps) :
    (client chunks).packets = (complete ps chunks.flatten.length).map some ∧
    (client chunks).connected = true ∧ (client chunks).errors = [] := by
  obtain ⟨r, h⟩ := h
  obtain ⟨s, e1, _, e3, e4, e5, _⟩ := receive_wire (react := clientReact) (d := true) ps hf
    (fun p hp => react_client (hr p hp)) chunks r h
  rw [client, e1]
  exact ⟨packets_eq hf _ e5, e3, e4⟩

/-- C09, the launcher as receiver. -/
theorem C09_launcher_any_chunking (ps : List Packet) (hf : ∀ p ∈ ps, Fits p)
    (hr : ∀ p ∈ ps, ForLauncher p) (chunks : List Bytes) (h : chunks.flatten <+: wire ps) :
    (launcher chunks).packets = (complete ps chunks.flatten.length).map some ∧
    (launcher chunks).connected = true ∧ (launcher chunks).errors = [] := by
  obtain ⟨r, h⟩ := h
  obtain ⟨s, e1, _, e3, e4, e5, _⟩ := receive_wire (react := launcherReact) (d := false) ps hf
    (fun p hp => react_launcher (hr p hp)) chunks r h
  rw [launcher, e1]
  exact ⟨packets_eq hf _ e5, e3, e4⟩

/-- All of the stream: all of the packets. -/
theorem C09_all_delivered (ps : List Packet) (hf : ∀ p ∈ ps, Fits p) (chunks : List Bytes)
    (h : chunks.flatten = wire ps) :
    ((∀ p ∈ ps, ForClient p) → (client chunks).packets = ps.map some) ∧
    ((∀ p ∈ ps, ForLauncher p) → (launcher chunks).packets = ps.map some) := by
  have hc : complete ps (wire ps).length = ps := by
    clear hf h
    induction ps with
    | nil => rfl
    | cons p ps ih =>
      rw [complete, wire_cons, List.length_append, if_pos (by omega)]
      rw [show p.serialize.length + (wire ps).length - p.serialize.length = (wire ps).length by omega,
        ih]
  refine ⟨fun hr => ?_, fun hr => ?_⟩
  · rw [(C09_client_any_chunking ps hf hr chunks (by rw [h]; exact List.prefix_refl _)).1, h, hc]
  · rw [(C09_launcher_any_chunking ps hf hr chunks (by rw [h]; exact List.prefix_refl _)).1, h, hc]

/-- A declared size below the minimum is reported, by both receivers, as soon as the four bytes
    are there, and nothing is passed on. -/
theorem C09_invalid_size_reported (n : Int) (hn : IsI32 n) (hlt : n < 9) (rest : Bytes)
    (react : Nat → Reaction) (d : Bool) :
    (receive react d {} (putI32 n ++ rest)).errors = [n] ∧
    (receive react d {} (putI32 n ++ rest)).out = [] ∧
    (receive react d {} (putI32 n ++ rest)).connected = !d := by
  simp [receive, drain, parse, getI32_putI32 hn, commonPayloadSize, hlt]

/-- After such an error qbs ignores whatever else arrives. -/
theorem C09_client_stops_after_error (chunks more : List Bytes)
    (h : (client chunks).connected = false) : client (chunks ++ more) = client chunks := by
  unfold client at *
  rw [List.foldl_append]
  generalize List.foldl _ _ chunks = s at *
  induction more with
  | nil => rfl
  | cons c cs ih => simp only [List.foldl_cons, receive, h]; exact ih

/-- The launcher does not stop: it has kept the invalid size and mis-parses what follows. Here the
    peer's size field says 5 and a stop request for process 7 follows; the launcher takes the
    request's size field and type for the start of a packet and shuts down (type 0). -/
theorem C09_launcher_misparses_after_error :
    (launcher [putI32 5, (Packet.stopProcess 7).serialize]).packets = [some .shutdown] ∧
    (launcher [putI32 5, (Packet.stopProcess 7).serialize]).errors = [5] := by
  decide +kernel

/-- A packet of two gigabytes or more is not delivered: its size does not fit into the size field,
    and the receiver reports an invalid packet size. -/
theorem C09_oversized_packet (p : Packet) (h1 : 2 ^ 31 ≤ p.payload.length + 9)
    (h2 : p.payload.length + 9 < 2 ^ 32) :
    (client [p.serialize]).packets = [] ∧ (client [p.serialize]).connected = false ∧
    (client [p.serialize]).errors ≠ [] := by
  have e : putI32 (p.body.length : Int) = putI32 ((p.body.length : Int) - 2 ^ 32) := by
    have : toU 32 (p.body.length : Int) = toU 32 ((p.body.length : Int) - 2 ^ 32) := by
      rw [body_length]; unfold toU; simp only [Nat.reducePow]; omega
    rw [putI32, putI32, this]
  have hi : IsI32 ((p.body.length : Int) - 2 ^ 32) := by
    rw [body_length]; unfold IsI32; omega
  have hl : (p.body.length : Int) - 2 ^ 32 < 9 := by rw [body_length]; omega
  have := C09_invalid_size_reported _ hi hl p.body clientReact true
  rw [client, serialize_eq, e]
  simp only [List.foldl_cons, List.foldl_nil, Receiver.packets]
  rw [this.1, this.2.1, this.2.2]
  simp

/-- The fuel given to `drain` by `receive` is enough: more of it makes no difference. -/
theorem drain_enough {react : Nat → Reaction} {d : Bool} :
    ∀ (fuel : Nat) (s : Receiver) (k : Nat), s.buf.length + (if s.size = -1 then 1 else 2) ≤ fuel →
      drain react d (fuel + k) s = drain react d fuel s := by
  intro fuel
  induction fuel with
  | zero => intro s k h; split at h <;> omega
  | succ fuel ih =>
    intro s k h
    rw [show fuel + 1 + k = (fuel + k) + 1 by omega, drain, drain]
    rcases hp : parse s.size s.buf with ⟨pr, n, b⟩
    cases pr with
    | incomplete => rfl
    | invalid e => rfl
    | packet ty tok dat =>
      simp only
      cases react ty with
      | deliver =>
        simp only
        apply ih
        have hbody : ∀ (sz : Int) (bf : Bytes), parseBody sz bf = (.packet ty tok dat, n, b) →
            n = -1 ∧ b.length ≤ bf.length := by
          intro sz bf hb
          unfold parseBody at hb
          split at hb
          · simp at hb
          · simp only [Prod.mk.injEq, Parsed.packet.injEq] at hb
            obtain ⟨_, h2, h3⟩ := hb
            refine ⟨h2.symm, ?_⟩
            have hr : ∀ k (x : Bytes), (readNum k x).2.length ≤ x.length := by
              intro k x
              unfold readNum getBE takeN
              split
              · rename_i p hp'
                split at hp'
                · simp only [Option.map_some, Option.some.injEq] at hp'
                  rw [← hp']; simp
                · simp at hp'
              · simp
            rw [← h3, List.length_drop]
            have a := hr 8 (readNum 1 bf).2
            have c := hr 1 bf
            omega
        unfold parse at hp
        split at hp
        · rename_i hs
          rw [if_pos hs] at h
          split at hp
          · simp at hp
          · rename_i m r hg
            split at hp
            · simp at hp
            · obtain ⟨h1, h2⟩ := hbody _ _ hp
              have : r.length + 4 ≤ s.buf.length := by
                unfold getI32 getBE takeN at hg
                split at hg
                · simp only [Option.map_some, Option.some.injEq, Prod.mk.injEq] at hg
                  rw [← hg.2, List.length_drop]; omega
                · simp at hg
              simp only [h1, if_true]
              omega
        · rename_i hs
          rw [if_neg hs] at h
          obtain ⟨h1, h2⟩ := hbody _ _ hp
          simp only [h1, if_true]
          omega
      | last => rfl
      | drop => rfl
      | skip => rfl

/-! ### Examples -/

def str (s : String) : QStr := some (s.toList.map fun c => UInt16.ofNat c.toNat)

def exFinished : Packet :=
  .processFinished 7 none (some [1, 2, 3]) (some []) 0 5 (-1)

def exStart : Packet :=
  .startProcess 3 (str "gcc") [str "-c", str "", none] (str "/tmp") [str "A=b"]

/-- Non-vacuity: packets that fit, in a stream cut inside the first packet's size field and payload
    and inside the second packet; the first is complete, the second is not. -/
example : (∀ p ∈ [exFinished, .processError 7 0 (str "no")], Fits p ∧ ForClient p) ∧
    Fits exStart ∧ ForLauncher exStart ∧
    (let w := wire [exFinished, .processError 7 0 (str "no")]
     let chunks := [w.take 3, (w.drop 3).take 20, (w.drop 23).take 20]
     chunks.flatten <+: w ∧ (client chunks).packets = [some exFinished]) := by
  refine ⟨?_, ?_, trivial, ?_⟩
  · simp only [List.mem_cons, List.not_mem_nil, or_false, forall_eq_or_imp, forall_eq]
    exact ⟨⟨by refine ⟨?_, ?_, ?_, ?_, ?_, ?_, ?_, ?_⟩ <;> first | trivial | decide +kernel | simp only [BytesOk, StrOk, str]; decide, trivial⟩,
      ⟨by refine ⟨?_, ?_, ?_, ?_⟩ <;> first | trivial | decide +kernel | simp only [BytesOk, StrOk, str]; decide, trivial⟩⟩
  · refine ⟨by decide, by decide +kernel, by simp [StrOk, str], ⟨by decide, ?_⟩, by simp [StrOk, str],
      ⟨by decide, ?_⟩⟩ <;> simp [StrOk, str]
  · exact ⟨by decide +kernel, by decide +kernel⟩

end Verif.Launcher
