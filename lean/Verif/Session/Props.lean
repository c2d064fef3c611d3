import Verif.Session.Model
import Verif.Common.Snoc

/-
C45: session packets survive any chunking of the input stream.
-/

namespace Verif.Session

open Verif.DS

/-! ### Specification -/

/-- What the peer sends: packets, each possibly preceded by other output (which does not contain the
    packet marker). -/
structure Item where
  noise : Bytes
  payload : Bytes

def Item.bytes (i : Item) : Bytes := i.noise ++ createPacket i.payload

def wire (is : List Item) : Bytes := (is.map Item.bytes).flatten

def Item.Ok (i : Item) : Prop := ¬ packetStart <:+: i.noise ∧ i.payload.length < 2 ^ 31

/-- The packets completely contained in the first `n` bytes. -/
def complete : List Item → Nat → List Bytes
  | [], _ => []
  | i :: is, n => if i.bytes.length ≤ n then i.payload :: complete is (n - i.bytes.length) else []

/-- What is required of Qt's number parsing: decimal numerals of `int`s are understood. -/
def ParsesNumbers (toInt : Bytes → Option Int) : Prop :=
  ∀ n : Nat, n < 2 ^ 31 → toInt (number n) = some (n : Int)

/-! ### Searching -/

theorem indexOf_some {pat bs : Bytes} {n : Nat} (h : indexOf pat bs = some n) :
    n ≤ bs.length ∧ pat <+: bs.drop n := by
  induction bs generalizing n with
  | nil =>
    simp only [indexOf] at h
    split at h
    · rename_i hp; subst hp; simp at h; subst h; simp
    · simp at h
  | cons c cs ih =>
    simp only [indexOf] at h
    split at h
    · rename_i hp; simp only [Option.some.injEq] at h; subst h
      exact ⟨by simp, List.isPrefixOf_iff_prefix.mp hp⟩
    · rcases ho : indexOf pat cs with _ | m
      · simp [ho] at h
      · simp only [ho, Option.map_some, Option.some.injEq] at h
        subst h
        have := ih ho
        exact ⟨by simp; omega, by simpa using this.2⟩

theorem indexOf_first {pat bs : Bytes} {n : Nat} (h1 : pat <+: bs.drop n) (hn : n ≤ bs.length)
    (h2 : ∀ m < n, ¬ pat <+: bs.drop m) : indexOf pat bs = some n := by
  induction bs generalizing n with
  | nil =>
    simp at hn; subst hn
    simp at h1; subst h1; simp [indexOf]
  | cons c cs ih =>
    cases n with
    | zero => simp only [List.drop_zero] at h1; simp [indexOf, List.isPrefixOf_iff_prefix.mpr h1]
    | succ n =>
      have h0 := h2 0 (by omega)
      simp only [List.drop_zero] at h0
      rw [indexOf, if_neg (by rw [List.isPrefixOf_iff_prefix]; exact h0)]
      rw [ih (n := n) (by simpa using h1) (by simpa using hn)
        (fun m hm => by have := h2 (m + 1) (by omega); simpa using this)]
      rfl

/-- The marker does not overlap itself. -/
theorem marker_unbordered {noise rest : Bytes} (hj : ¬ packetStart <:+: noise) {m : Nat}
    (hm : m < noise.length) : ¬ packetStart <+: (noise ++ (packetStart ++ rest)).drop m := by
  intro h
  obtain ⟨t, ht⟩ := h
  rw [List.drop_append_of_le_length (by omega)] at ht
  by_cases h7 : 7 ≤ (noise.drop m).length
  · apply hj
    rcases List.append_eq_append_iff.mp ht with ⟨a, h1, _⟩ | ⟨a, h1, _⟩
    · exact ⟨noise.take m, a, by rw [List.append_assoc, ← h1, List.take_append_drop]⟩
    · have : a = [] := by
        have := congrArg List.length h1
        simp only [List.length_append, packetStart, List.length_cons, List.length_nil] at this
        exact List.length_eq_zero_iff.mp (by omega)
      subst this
      exact ⟨noise.take m, [], by rw [h1]; simp⟩
  · generalize hd : noise.drop m = d at *
    have hd0 : 0 < d.length := by rw [← hd, List.length_drop]; omega
    have := congrArg (fun l => l[d.length]?) ht
    simp only [packetStart] at this
    rcases d with _ | ⟨x1, _ | ⟨x2, _ | ⟨x3, _ | ⟨x4, _ | ⟨x5, _ | ⟨x6, _ | ⟨x7, d⟩⟩⟩⟩⟩⟩⟩ <;>
      simp at this hd0 h7
    

theorem indexOf_marker {noise rest : Bytes} (hj : ¬ packetStart <:+: noise) :
    indexOf packetStart (noise ++ (packetStart ++ rest)) = some noise.length :=
  indexOf_first (by simp) (by simp) fun _ hm => marker_unbordered hj hm

theorem indexOf_byte {b : UInt8} {ds rest : Bytes} (h : b ∉ ds) :
    indexOf [b] (ds ++ b :: rest) = some ds.length := by
  apply indexOf_first
  · simp
  · simp
  · intro m hm hp
    rw [List.drop_append_of_le_length (by omega)] at hp
    obtain ⟨t, ht⟩ := hp
    have h0 := congrArg (fun l => l[0]?) ht
    simp only [List.cons_append, List.nil_append, List.getElem?_cons_zero] at h0
    rw [List.getElem?_append_left (by rw [List.length_drop]; omega), List.getElem?_drop] at h0
    exact h (List.mem_of_getElem? h0.symm)

theorem indexOf_byte_none {b : UInt8} {ds : Bytes} (h : b ∉ ds) : indexOf [b] ds = none := by
  rcases ho : indexOf [b] ds with _ | n
  · rfl
  · have := (indexOf_some ho).2
    obtain ⟨t, ht⟩ := this
    exact absurd (List.mem_of_mem_drop (i := n) (by rw [← ht]; simp)) h

theorem number_no_newline (n : Nat) : (0x0a : UInt8) ∉ number n := by
  intro h
  simp only [number, List.mem_map] at h
  obtain ⟨c, hc, h⟩ := h
  have hd := Digits.number_isDigit n c hc
  simp only [Char.isDigit, Bool.and_eq_true, decide_eq_true_eq] at hd
  have h1 : 48 ≤ c.toNat := by have := hd.1; simpa [UInt32.le_iff_toNat_le] using this
  have h2 : c.toNat ≤ 57 := by have := hd.2; simpa [UInt32.le_iff_toNat_le] using this
  have := congrArg UInt8.toNat h
  simp only [UInt8.toNat_ofNat'] at this
  have e : (0x0a : UInt8).toNat = 10 := rfl
  rw [e] at this
  omega

/-! ### One packet -/

def header (p : Bytes) : Bytes := packetStart ++ number p.length ++ [0x0a]

theorem bytes_eq (i : Item) : i.bytes = i.noise ++ (header i.payload ++ i.payload) := by
  simp [Item.bytes, createPacket, header]

theorem header_pos (p : Bytes) : 8 ≤ (header p).length := by
  simp [header, packetStart]

/-- `u` is what has been received of `wire is`; `s` holds it. -/
inductive Holds (s : St) : List Item → Bytes → Prop where
  | searching (is u) : s.expected = -1 → s.payload = [] → s.incoming = u → Holds s is u
  | payload (i is u) : s.expected = i.payload.length → s.payload.length < i.payload.length →
      i.noise ++ (header i.payload ++ (s.payload ++ s.incoming)) = u → Holds s (i :: is) u

section
variable {toInt : Bytes → Option Int} (hT : ParsesNumbers toInt)
include hT

theorem parse_header {s : St} {i : Item} {t : Bytes} (hi : i.Ok) (he : s.expected = -1)
    (hs : s.incoming = i.noise ++ (header i.payload ++ t)) :
    parseInput toInt s =
      addPayload { s with expected := i.payload.length, incoming := t } := by
  have hs' : s.incoming = i.noise ++ (packetStart ++ (number i.payload.length ++ 0x0a :: t)) := by
    rw [hs]; simp [header]
  have hd : s.incoming.drop (i.noise.length + packetStart.length) =
      number i.payload.length ++ 0x0a :: t := by
    rw [hs', ← List.append_assoc, List.drop_left' (by simp)]
  unfold parseInput
  rw [if_pos he]
  rw [show indexOf packetStart s.incoming = some i.noise.length by
    rw [hs']; exact indexOf_marker hi.1]
  simp only
  rw [hd, indexOf_byte (number_no_newline _)]
  simp only
  rw [List.take_left' rfl, hT _ hi.2]
  simp only
  rw [if_neg (by omega)]
  congr 2
  rw [show i.noise.length + packetStart.length + (number i.payload.length).length + 1 =
    (i.noise.length + packetStart.length) + ((number i.payload.length).length + 1) by omega,
    ← List.drop_drop, hd]
  rw [show number i.payload.length ++ 0x0a :: t = (number i.payload.length ++ [0x0a]) ++ t by simp,
    List.drop_left' (by simp)]

omit hT in
theorem addPayload_whole {s : St} {p t : Bytes} (he : s.expected = p.length)
    (h : s.payload ++ s.incoming = p ++ t) (hl : s.payload.length ≤ p.length) :
    addPayload s = (.complete, ⟨s.expected, p, t⟩) := by
  unfold addPayload
  simp only
  rw [if_neg (by omega)]
  have hn : (s.expected - (s.payload.length : Int)).toNat = p.length - s.payload.length := by omega
  rw [hn]
  have : ∃ q, p = s.payload ++ q ∧ s.incoming = q ++ t := by
    rcases List.append_eq_append_iff.mp h with ⟨a, h1, h2⟩ | ⟨a, h1, h2⟩
    · exact ⟨a, h1, h2⟩
    · have : a = [] := by
        have := congrArg List.length h1
        rw [List.length_append] at this
        exact List.length_eq_zero_iff.mp (by omega)
      subst this
      exact ⟨[], by simpa using h1.symm, by simpa using h2.symm⟩
  obtain ⟨q, h1, h2⟩ := this
  have hq : p.length - s.payload.length = q.length := by rw [h1, List.length_append]; omega
  rw [hq, h2, List.take_left' rfl, List.drop_left' rfl, ← h1]
  simp [he]

omit hT in
theorem addPayload_part {s : St} {p r : Bytes} (he : s.expected = p.length)
    (h : s.payload ++ s.incoming ++ r = p) (hr : r ≠ []) :
    addPayload s = (.incomplete, ⟨s.expected, s.payload ++ s.incoming, []⟩) := by
  have hrl : 0 < r.length := List.length_pos_iff.mpr hr
  have hl := congrArg List.length h
  simp only [List.length_append] at hl
  unfold addPayload
  simp only
  rw [if_neg (by omega), List.take_of_length_le (by omega), List.drop_of_length_le (by omega),
    if_neg (by rw [List.length_append]; omega)]

theorem parse_whole {s : St} {i : Item} {is : List Item} {t : Bytes} (hi : i.Ok)
    (h : Holds s (i :: is) (i.bytes ++ t)) :
    ∃ e, parseInput toInt s = (.complete, ⟨e, i.payload, t⟩) := by
  rw [bytes_eq, List.append_assoc, List.append_assoc] at h
  cases h with
  | searching _ _ h1 h2 h3 =>
    rw [parse_header hT hi h1 h3]
    exact ⟨_, addPayload_whole rfl (by simp [h2]) (by simp [h2])⟩
  | payload _ _ _ h1 h2 h3 =>
    rw [parseInput, if_neg (by omega)]
    have := List.append_cancel_left (List.append_cancel_left h3)
    exact ⟨_, addPayload_whole h1 this (by omega)⟩

theorem parse_part {s : St} {i : Item} {is : List Item} {u r : Bytes} (hi : i.Ok)
    (h : Holds s (i :: is) u) (hu : u ++ r = i.bytes) (hr : r ≠ []) :
    ∃ s', parseInput toInt s = (.incomplete, s') ∧ Holds s' (i :: is) u := by
  have hrl : 0 < r.length := List.length_pos_iff.mpr hr
  rw [bytes_eq, ← List.append_assoc] at hu
  cases h with
  | searching _ _ h1 h2 h3 =>
    rcases List.append_eq_append_iff.mp hu with ⟨a, k1, k2⟩ | ⟨a, k1, k2⟩
    · -- the header is not complete, or just complete
      by_cases ha : a = []
      · subst ha
        have h3' : s.incoming = i.noise ++ (header i.payload ++ []) := by simp [h3, k1]
        rw [parse_header hT hi h1 h3']
        rw [addPayload_part (p := i.payload) (r := i.payload) rfl (by simp [h2])
          (by intro hn; rw [hn] at k2; simp at k2; exact hr k2)]
        refine ⟨_, rfl, .payload _ _ _ rfl ?_ ?_⟩
        · simp only [h2, List.append_nil, List.length_nil]
          simp only [List.nil_append] at k2; rw [← k2]; exact hrl
        · simp [h2, k1]
      · refine ⟨s, ?_, .searching _ _ h1 h2 h3⟩
        have hal : 0 < a.length := List.length_pos_iff.mpr ha
        unfold parseInput
        rw [if_pos h1]
        rcases ho : indexOf packetStart s.incoming with _ | n
        · rfl
        · simp only
          obtain ⟨o1, o2⟩ := indexOf_some ho
          rw [h3] at o1 o2
          have hn : n = i.noise.length := by
            have hw : indexOf packetStart (u ++ a) = some i.noise.length := by
              rw [← k1, header, List.append_assoc packetStart]; exact indexOf_marker hi.1
            have hle : packetStart <+: (u ++ a).drop n := by
              rw [List.drop_append_of_le_length o1]
              exact o2.trans (List.prefix_append _ _)
            have hle2 : packetStart.length ≤ u.length - n := by
              have := o2.length_le; rwa [List.length_drop] at this
            rcases Nat.lt_trichotomy n i.noise.length with hlt | heq | hgt
            · rw [← k1, header, List.append_assoc packetStart] at hle
              exact absurd hle (marker_unbordered hi.1 hlt)
            · exact heq
            · exfalso
              have hlen := congrArg List.length k1
              have hsome := ho
              rw [h3] at hsome
              have : indexOf packetStart u = some i.noise.length := by
                apply indexOf_first
                · have : packetStart <+: (u ++ a).drop i.noise.length := (indexOf_some hw).2
                  rw [List.drop_append_of_le_length (by omega)] at this
                  obtain ⟨t, ht⟩ := this
                  rcases List.append_eq_append_iff.mp ht with ⟨b, b1, _⟩ | ⟨b, b1, _⟩
                  · exact ⟨b, b1.symm⟩
                  · have hb := congrArg List.length b1
                    rw [List.length_append, List.length_drop] at hb
                    have : b = [] := List.length_eq_zero_iff.mp (by omega)
                    subst this
                    exact ⟨[], by simpa using b1⟩
                · omega
                · intro m hm hp
                  have hp' : packetStart <+: (u ++ a).drop m := by
                    rw [List.drop_append_of_le_length (by omega)]
                    exact hp.trans (List.prefix_append _ _)
                  rw [← k1, header, List.append_assoc packetStart] at hp'
                  exact marker_unbordered hi.1 hm hp'
              rw [hsome] at this
              simp only [Option.some.injEq] at this
              omega
          subst hn
          rw [indexOf_byte_none]
          intro hmem
          rw [h3] at hmem
          have hlen := congrArg List.length k1
          have hle2 : packetStart.length ≤ u.length - i.noise.length := by
            have := o2.length_le; rwa [List.length_drop] at this
          have hpl : packetStart.length = 7 := rfl
          have hd : u.drop (i.noise.length + packetStart.length) ++ a =
              number i.payload.length ++ [0x0a] := by
            rw [← List.drop_append_of_le_length (by omega), ← k1, header]
            rw [List.append_assoc packetStart, ← List.append_assoc, List.drop_left' (by simp)]
          generalize u.drop (i.noise.length + packetStart.length) = w at *
          rcases List.append_eq_append_iff.mp hd with ⟨b, b1, b2⟩ | ⟨b, b1, b2⟩
          · exact number_no_newline _ (by rw [b1]; simp [hmem])
          · have : b = [] := by
              have := congrArg List.length b2
              rw [List.length_append] at this
              simp only [List.length_cons, List.length_nil] at this
              exact List.length_eq_zero_iff.mp (by omega)
            subst this
            rw [List.append_nil] at b1
            exact number_no_newline _ (by rw [← b1]; exact hmem)
    · -- part of the payload is there
      have h3' : s.incoming = i.noise ++ (header i.payload ++ a) := by simp [h3, k1]
      rw [parse_header hT hi h1 h3']
      rw [addPayload_part (p := i.payload) (r := r) rfl (by simp [h2, k2]) hr]
      refine ⟨_, rfl, .payload _ _ _ rfl ?_ ?_⟩
      · simp only [h2, List.nil_append]
        rw [k2, List.length_append]; omega
      · simp [h2, k1]
  | payload _ _ _ h1 h2 h3 =>
    rw [parseInput, if_neg (by omega)]
    have : s.payload ++ s.incoming ++ r = i.payload := by
      rw [← h3] at hu
      simp only [List.append_assoc] at hu ⊢
      exact List.append_cancel_left (List.append_cancel_left hu)
    rw [addPayload_part h1 this hr]
    refine ⟨_, rfl, .payload _ _ _ h1 ?_ (by simpa using h3)⟩
    rw [← this]; simp only [List.length_append]; omega

/-! ### The stream -/

omit hT in
theorem wire_cons (i : Item) (is : List Item) : wire (i :: is) = i.bytes ++ wire is := rfl

omit hT in
theorem holds_nil {s : St} {u : Bytes} (h : Holds s [] u) : s.incoming = u := by
  cases h; assumption

omit hT in
theorem bytes_pos (i : Item) : 8 ≤ i.bytes.length := by
  rw [bytes_eq, List.length_append, List.length_append]
  have := header_pos i.payload
  omega

/-- The spec's decomposition: complete packets and the rest. -/
theorem loop_wire (is : List Item) (hok : ∀ i ∈ is, i.Ok) :
    ∀ (fuel : Nat) (s : Reader) (u r : Bytes), Holds s.st is u → u ++ r = wire is →
      s.st.incoming.length < fuel →
      ∃ is1 is2 u', is = is1 ++ is2 ∧ u = wire is1 ++ u' ∧
        (∀ i is3, is2 = i :: is3 → u'.length < i.bytes.length) ∧
        Holds (loop toInt fuel s).st is2 u' ∧
        (loop toInt fuel s).out = s.out ++ is1.map Item.payload ∧
        (loop toInt fuel s).error = s.error := by
  induction is with
  | nil =>
    intro fuel s u r h hu hf
    have : u = [] := (List.append_eq_nil_iff.mp hu).1
    subst this
    obtain ⟨fuel, rfl⟩ := Nat.exists_eq_succ_of_ne_zero (by omega : fuel ≠ 0)
    refine ⟨[], [], [], rfl, rfl, by simp, ?_⟩
    rw [loop, if_pos (holds_nil h)]
    exact ⟨h, by simp, rfl⟩
  | cons i is ih =>
    intro fuel s u r h hu hf
    obtain ⟨fuel, rfl⟩ := Nat.exists_eq_succ_of_ne_zero (by omega : fuel ≠ 0)
    have hi := hok i (by simp)
    rw [wire_cons] at hu
    by_cases hc : i.bytes.length ≤ u.length
    · have : ∃ t, u = i.bytes ++ t ∧ t ++ r = wire is := by
        rcases List.append_eq_append_iff.mp hu with ⟨a, h1, h2⟩ | ⟨a, h1, h2⟩
        · have : a = [] := by
            have := congrArg List.length h1
            rw [List.length_append] at this
            exact List.length_eq_zero_iff.mp (by omega)
          subst this
          exact ⟨[], by simpa using h1.symm, by simpa using h2⟩
        · exact ⟨a, h1, h2.symm⟩
      obtain ⟨t, h1, h2⟩ := this
      subst h1
      obtain ⟨e, hp⟩ := parse_whole hT hi h
      have hne : s.st.incoming ≠ [] := by
        intro hn
        cases h with
        | searching _ _ k1 k2 k3 =>
          rw [hn] at k3
          have := congrArg List.length k3
          rw [List.length_append] at this
          have := bytes_pos i
          simp only [List.length_nil] at *
          omega
        | payload _ _ _ k1 k2 k3 =>
          rw [hn, bytes_eq] at k3
          have := congrArg List.length k3
          simp only [List.length_append, List.length_nil] at this
          omega
      have hlt : t.length < s.st.incoming.length := by
        cases h with
        | searching _ _ k1 k2 k3 =>
          rw [k3, List.length_append]; have := bytes_pos i; omega
        | payload _ _ _ k1 k2 k3 =>
          rw [bytes_eq] at k3
          have := congrArg List.length k3
          simp only [List.length_append] at this
          omega
      rw [loop, if_neg hne, hp]
      simp only
      obtain ⟨is1, is2, u', e1, e2, e3, e4, e5, e6⟩ :=
        ih (fun j hj => hok j (by simp [hj])) fuel
          ⟨⟨-1, [], t⟩, s.out ++ [i.payload], s.error⟩ t r (.searching _ _ rfl rfl rfl) h2
          (by simp only; omega)
      refine ⟨i :: is1, is2, u', by rw [e1]; rfl, by rw [wire_cons, List.append_assoc, ← e2], e3,
        e4, ?_, e6⟩
      rw [e5]; simp
    · have : ∃ t, u ++ t = i.bytes ∧ t ≠ [] := by
        rcases List.append_eq_append_iff.mp hu with ⟨a, h1, h2⟩ | ⟨a, h1, h2⟩
        · refine ⟨a, h1.symm, ?_⟩
          rintro rfl
          rw [List.append_nil] at h1; rw [h1] at hc; exact hc (Nat.le_refl _)
        · rw [h1] at hc; simp at hc
      obtain ⟨t, h1, h2⟩ := this
      refine ⟨[], i :: is, u, rfl, rfl, ?_, ?_⟩
      · intro j js hj
        simp only [List.cons.injEq] at hj
        rw [← hj.1]; omega
      · rw [loop]
        by_cases hne : s.st.incoming = []
        · rw [if_pos hne]; exact ⟨h, by simp, rfl⟩
        · rw [if_neg hne]
          obtain ⟨s', k1, k2⟩ := parse_part hT hi h h1 h2
          rw [k1]
          exact ⟨k2, by simp, rfl⟩

omit hT in
theorem complete_eq (is1 is2 : List Item) (u : Bytes)
    (h : ∀ i is3, is2 = i :: is3 → u.length < i.bytes.length) :
    complete (is1 ++ is2) ((wire is1 ++ u).length) = is1.map Item.payload := by
  induction is1 with
  | nil =>
    cases is2 with
    | nil => rfl
    | cons i is =>
      have := h i is rfl
      simp only [wire, List.map_nil, List.flatten_nil, List.nil_append, complete]
      rw [if_neg (by omega)]
  | cons i is1 ih =>
    rw [List.cons_append, complete, wire_cons, List.append_assoc, List.length_append,
      if_pos (by omega), Nat.add_sub_cancel_left, ih, List.map_cons]

omit hT in
theorem holds_append {s : St} {is : List Item} {u c : Bytes} (h : Holds s is u) :
    Holds { s with incoming := s.incoming ++ c } is (u ++ c) := by
  cases h with
  | searching _ _ h1 h2 h3 => exact .searching _ _ h1 h2 (by simp [h3])
  | payload _ _ _ h1 h2 h3 =>
    refine .payload _ _ _ h1 h2 ?_
    rw [← h3]; simp

/-- C45: whatever packets are sent, with whatever other output in between, and however the stream
    is cut into chunks: after each chunk exactly the packets that have arrived completely have been
    delivered, in order and unchanged, and no error has been reported. -/
theorem C45_any_chunking (is : List Item) (hok : ∀ i ∈ is, i.Ok) (chunks : List Bytes)
    (h : chunks.flatten <+: wire is) :
    (reader toInt chunks).out = complete is chunks.flatten.length ∧
    (reader toInt chunks).error = false := by
  obtain ⟨r, h⟩ := h
  suffices ∃ is1 is2 u', is = is1 ++ is2 ∧ chunks.flatten = wire is1 ++ u' ∧
      (∀ i is3, is2 = i :: is3 → u'.length < i.bytes.length) ∧
      Holds (reader toInt chunks).st is2 u' ∧
      (reader toInt chunks).out = is1.map Item.payload ∧ (reader toInt chunks).error = false by
    obtain ⟨is1, is2, u', e1, e2, e3, _, e5, e6⟩ := this
    exact ⟨by rw [e5, e1, e2, complete_eq is1 is2 u' e3], e6⟩
  induction chunks using Verif.snoc_induction generalizing r with
  | nil =>
    refine ⟨[], is, [], rfl, rfl, ?_, .searching _ _ rfl rfl rfl, rfl, rfl⟩
    intro i is3 _; have := bytes_pos i; simp only [List.length_nil]; omega
  | append_singleton cs c ih =>
    simp only [List.flatten_append, List.flatten_cons, List.flatten_nil, List.append_nil,
      List.append_assoc] at h ⊢
    obtain ⟨is1, is2, u, e1, e2, e3, e4, e5, e6⟩ := ih (c ++ r) h
    have hw : u ++ c ++ r = wire is2 := by
      rw [e2, e1] at h
      have : wire (is1 ++ is2) = wire is1 ++ wire is2 := by simp [wire]
      rw [this, List.append_assoc] at h
      rw [List.append_assoc]
      exact List.append_cancel_left h
    have hr : reader toInt (cs ++ [c]) = dataAvailable toInt (reader toInt cs) c := by
      simp [reader]
    generalize reader toInt cs = R at *
    obtain ⟨is3, is4, u', f1, f2, f3, f4, f5, f6⟩ := loop_wire hT is2
      (fun i hi => hok i (by rw [e1]; simp [hi])) ((R.st.incoming ++ c).length + 1)
      { R with st := { R.st with incoming := R.st.incoming ++ c } } (u ++ c) r (holds_append e4) hw
      (by simp only; omega)
    rw [hr]
    refine ⟨is1 ++ is3, is4, u', by rw [e1, f1, List.append_assoc], ?_, f3, f4, ?_, ?_⟩
    · rw [e2, List.append_assoc, f2]; simp [wire]
    · rw [dataAvailable, f5]; simp [e5]
    · rw [dataAvailable, f6]; exact e6

/-- All of the stream: all of the packets. -/
theorem C45_all_delivered (is : List Item) (hok : ∀ i ∈ is, i.Ok) (chunks : List Bytes)
    (h : chunks.flatten = wire is) :
    (reader toInt chunks).out = is.map Item.payload := by
  rw [(C45_any_chunking hT is hok chunks (by rw [h]; exact List.prefix_refl _)).1, h]
  have := complete_eq is [] [] (by simp)
  simpa using this

end

/-- Input whose length field is not a number is reported as invalid. -/
theorem C45_invalid_length_reported (toInt : Bytes → Option Int) (len rest : Bytes)
    (hl : (0x0a : UInt8) ∉ len) (ht : toInt len = none) :
    (reader toInt [packetStart ++ len ++ [0x0a] ++ rest]).error = true ∧
    (reader toInt [packetStart ++ len ++ [0x0a] ++ rest]).out = [] := by
  have h1 := indexOf_marker (noise := []) (rest := len ++ 0x0a :: rest) (by decide)
  simp only [List.nil_append, List.length_nil] at h1
  have h2 : (packetStart ++ (len ++ 0x0a :: rest)).drop (0 + packetStart.length) =
      len ++ 0x0a :: rest := List.drop_left' (by simp)
  have : reader toInt [packetStart ++ len ++ [0x0a] ++ rest] =
      ⟨⟨-1, [], packetStart ++ len ++ [0x0a] ++ rest⟩, [], true⟩ := by
    simp only [reader, List.foldl_cons, List.foldl_nil, dataAvailable, loop, List.nil_append,
      List.append_assoc, List.cons_append]
    rw [if_neg (by simp [packetStart])]
    unfold parseInput
    simp only [if_true]
    rw [h1]
    simp only
    rw [h2, indexOf_byte hl]
    simp only
    rw [List.take_left' rfl, ht]
  rw [this]; exact ⟨rfl, rfl⟩

/-- Non-vacuity: a number parser that meets the assumption, two packets with noise in between that
    even contains part of the marker, cut into chunks of one byte. -/
def parseDigits (bs : Bytes) : Option Int :=
  some (Digits.value (bs.map fun b => Char.ofNat b.toNat))

theorem parseDigits_ok : ParsesNumbers parseDigits := by
  intro n _
  have : (number n).map (fun b => Char.ofNat b.toNat) = Digits.number n := by
    rw [number, List.map_map]
    conv => rhs; rw [← List.map_id (Digits.number n)]
    apply List.map_congr_left
    intro c hc
    have hd := Digits.number_isDigit n c hc
    simp only [Char.isDigit, Bool.and_eq_true, decide_eq_true_eq] at hd
    have h2 : c.toNat ≤ 57 := by have := hd.2; simpa [UInt32.le_iff_toNat_le] using this
    simp only [Function.comp, UInt8.toNat_ofNat', id]
    rw [Nat.mod_eq_of_lt (by omega)]
    exact Char.ofNat_toNat c
  rw [parseDigits, this, Digits.value_number]

example : (∀ i ∈ [Item.mk [] [65, 66], ⟨[0x71, 0x62, 0x71], []⟩], i.Ok) ∧
    (let w := wire [Item.mk [] [65, 66], ⟨[0x71, 0x62, 0x71], []⟩]
     (reader parseDigits (w.map fun b => [b])).out = [[65, 66], []]) := by
  refine ⟨?_, by decide +kernel⟩
  simp only [List.mem_cons, List.not_mem_nil, or_false, forall_eq_or_imp, forall_eq, Item.Ok]
  exact ⟨⟨by decide, by decide⟩, by decide, by decide⟩

end Verif.Session
