import Verif.TextF.Lem2

/-! UTF-8, lines, and writing at the end. -/
namespace Verif.TextF

theorem enc8_len (c : Nat) : 1 ≤ (enc8 c).length := by
  unfold enc8
  split
  · simp
  · split
    · simp
    · split <;> simp

theorem dec8_enc (c : Nat) (hc : c < 1114112) (r : Bytes) (f : Nat) :
    dec8 (f + 1) (enc8 c ++ r) = c :: dec8 f r := by
  unfold enc8
  split
  · rename_i h
    simp [dec8, h]
  · split
    · rename_i h1 h2
      have a1 : ¬ (192 + c / 64 < 128) := by omega
      have a2 : 192 ≤ 192 + c / 64 ∧ 192 + c / 64 < 224 := by omega
      have a3 : cont (128 + c % 64) = true := by simp [cont]; omega
      simp only [List.cons_append, List.nil_append, dec8, a1, a2, a3, if_true, if_false, and_self]
      have e : (192 + c / 64 - 192) * 64 + (128 + c % 64 - 128) = c := by omega
      rw [e]
    · split
      · rename_i h1 h2 h3
        have a1 : ¬ (224 + c / 4096 < 128) := by omega
        have a2 : ¬ (192 ≤ 224 + c / 4096 ∧ 224 + c / 4096 < 224) := by omega
        have a3 : 224 ≤ 224 + c / 4096 ∧ 224 + c / 4096 < 240 := by omega
        have a4 : cont (128 + c / 64 % 64) = true := by simp [cont]; omega
        have a5 : cont (128 + c % 64) = true := by simp [cont]; omega
        simp only [List.cons_append, List.nil_append, dec8, a1, a3, a4, a5, if_true, if_false, and_self,
          Bool.and_self]
        rw [if_neg a2]
        have e : (224 + c / 4096 - 224) * 4096 + (128 + c / 64 % 64 - 128) * 64 + (128 + c % 64 - 128) = c := by omega
        rw [e]
      · rename_i h1 h2 h3
        have a1 : ¬ (240 + c / 262144 < 128) := by omega
        have a2 : ¬ (192 ≤ 240 + c / 262144 ∧ 240 + c / 262144 < 224) := by omega
        have a3 : ¬ (224 ≤ 240 + c / 262144 ∧ 240 + c / 262144 < 240) := by omega
        have a6 : 240 ≤ 240 + c / 262144 ∧ 240 + c / 262144 < 248 := by omega
        have a4 : cont (128 + c / 64 % 64) = true := by simp [cont]; omega
        have a5 : cont (128 + c % 64) = true := by simp [cont]; omega
        have a7 : cont (128 + c / 4096 % 64) = true := by simp [cont]; omega
        simp only [List.cons_append, List.nil_append, dec8, a1, a4, a5, a6, a7, if_true, if_false, and_self,
          Bool.and_self]
        rw [if_neg a2, if_neg a3]
        have e : (240 + c / 262144 - 240) * 262144 + (128 + c / 4096 % 64 - 128) * 4096 +
          (128 + c / 64 % 64 - 128) * 64 + (128 + c % 64 - 128) = c := by omega
        rw [e]

theorem dec8_text : ∀ (t : Text), (∀ c ∈ t, c < 1114112) → ∀ f, (t.flatMap enc8).length ≤ f →
    dec8 f (t.flatMap enc8) = t := by
  intro t
  induction t with
  | nil => intro _ f _; cases f <;> simp [dec8]
  | cons c t ih =>
    intro hc f hf
    have h1 := enc8_len c
    simp only [List.flatMap_cons, List.length_append] at hf ⊢
    obtain ⟨g, rfl⟩ : ∃ g, f = g + 1 := ⟨f - 1, by omega⟩
    rw [dec8_enc c (hc c (by simp)), ih (fun x hx => hc x (List.mem_cons_of_mem _ hx)) g (by omega)]

theorem decode_encode {t : Text} (ht : Plain t) : decode .utf8 (encode .utf8 t) = t := by
  simp only [decode, encode]
  rw [dec8_text t ht.1 _ (Nat.le_refl _)]
  cases t with
  | nil => rfl
  | cons c t =>
    have : c ≠ bom := fun e => ht.2 (by simp [e])
    simp [stripBom, this]

theorem mem_enc8 {c b : Nat} (hb : b ∈ enc8 c) (h : b < 128) : c = b := by
  unfold enc8 at hb
  split at hb
  · simp at hb; exact hb.symm
  · split at hb
    · simp at hb; omega
    · split at hb
      · simp at hb; omega
      · simp at hb; omega

theorem mem_encode {t : Text} {b : Nat} (hb : b ∈ encode .utf8 t) (h : b < 128) : b ∈ t := by
  simp only [encode, List.mem_flatMap] at hb
  obtain ⟨c, hc, hb⟩ := hb
  rw [← mem_enc8 hb h]; exact hc

theorem enc8_last {c : Nat} (h : (enc8 c).getLast? = some 13) : c = 13 :=
  mem_enc8 (List.mem_of_getLast? h) (by omega)

theorem encode_last {t : Text} (h : (encode .utf8 t).getLast? = some 13) : t.getLast? = some 13 := by
  simp only [encode] at h
  revert h
  rcases List.eq_nil_or_concat t with e | ⟨l, c, e⟩
  · subst e; simp
  · subst e
    intro h
    simp only [List.concat_eq_append, List.flatMap_append, List.flatMap_cons, List.flatMap_nil, List.append_nil] at h ⊢
    have hne : enc8 c ≠ [] := by
      intro e
      have := enc8_len c
      rw [e] at this; simp at this
    rw [List.getLast?_append] at h
    cases hl : (enc8 c).getLast? with
    | none => exact absurd (List.getLast?_eq_none_iff.mp hl) hne
    | some v =>
      rw [hl] at h
      simp only [Option.some_or, Option.some.injEq] at h
      subst h
      rw [enc8_last hl]; simp

theorem takeLine_of {x : Bytes} (hx : 10 ∉ x) (r : Bytes) : takeLine (x ++ 10 :: r) = x ++ [10] := by
  induction x with
  | nil => simp [takeLine]
  | cons a x ih =>
    simp only [List.mem_cons, not_or] at hx
    have : a ≠ 10 := fun e => hx.1 e.symm
    simp [takeLine, this, ih hx.2]

theorem takeLine_all {x : Bytes} (hx : 10 ∉ x) : takeLine x = x := by
  induction x with
  | nil => rfl
  | cons a x ih =>
    simp only [List.mem_cons, not_or] at hx
    have : a ≠ 10 := fun e => hx.1 e.symm
    simp [takeLine, this, ih hx.2]

theorem textLine_lf {x : Bytes} (hx : x.getLast? ≠ some 13) : textLine (x ++ [10]) = x ++ [10] := by
  unfold textLine
  rw [if_neg]
  intro e
  rw [List.reverse_append] at e
  simp only [List.reverse_cons, List.reverse_nil, List.nil_append, List.cons_append] at e
  apply hx
  rw [← List.head?_reverse]
  cases hr : x.reverse with
  | nil => rw [hr] at e; simp at e
  | cons a l => rw [hr] at e; simp at e; simp [e]

theorem textLine_crlf (x : Bytes) : textLine (x ++ [13, 10]) = x ++ [10] := by
  unfold textLine
  rw [if_pos (by simp)]
  rw [show x ++ [13, 10] = (x ++ [13]) ++ [10] by simp, List.dropLast_concat, List.dropLast_concat]

theorem textLine_none {x : Bytes} (hx : 10 ∉ x) : textLine x = x := by
  unfold textLine
  rw [if_neg]
  intro e
  apply hx
  rw [← List.mem_reverse]
  exact List.mem_of_mem_take (i := 2) (by rw [e]; simp)

/-- Writing at the end of a file: the buffer goes to the end. -/
structure AtEnd (d : Disk) (h : Handle) (c : Bytes) : Prop where
  limit : d.limit = none
  writable : h.writable = true
  pos : h.append = true ∨ h.pos = d.bytes.length
  content : c = d.bytes ++ h.buf

theorem sysWrite_end {d : Disk} {h : Handle} {c : Bytes} (a : AtEnd d h c) (x : Bytes) :
    sysWrite d h x = ({ d with bytes := d.bytes ++ x }, { h with pos := d.bytes.length + x.length }, x.length) := by
  have hp : (if h.append = true then d.bytes.length else h.pos) = d.bytes.length := by
    rcases a.pos with e | e
    · simp [e]
    · simp [e]
  simp only [sysWrite, fits, a.limit, hp, List.take_of_length_le (Nat.le_refl _), splice_end]

theorem flush_end {d : Disk} {h : Handle} {c : Bytes} (a : AtEnd d h c) :
    ∃ d' h', flush d h = (d', h', true) ∧ AtEnd d' h' c ∧ d'.bytes = c ∧ h'.buf = [] := by
  unfold flush
  split
  · rename_i e
    exact ⟨d, h, rfl, a, by rw [a.content, e, List.append_nil], e⟩
  · rw [sysWrite_end a]
    simp only
    refine ⟨{ d with bytes := d.bytes ++ h.buf },
      { h with pos := d.bytes.length + h.buf.length, buf := h.buf.drop h.buf.length },
      by rw [beq_self_eq_true], ⟨a.limit, a.writable, .inr (by simp), ?_⟩, a.content.symm, ?_⟩
    · simp [a.content]
    · simp

theorem fileWrite_end (chunk : Nat) {d : Disk} {h : Handle} {c : Bytes} (a : AtEnd d h c) (x : Bytes) :
    ∃ d' h' n, fileWrite chunk d h x = (d', h', n) ∧ AtEnd d' h' (c ++ x) := by
  unfold fileWrite
  rw [if_neg (by simp [a.writable])]
  split
  · obtain ⟨d', h', e, b, e1, e2⟩ := flush_end a
    simp only [e]
    split
    · rw [sysWrite_end b]
      refine ⟨_, _, _, rfl, ⟨b.limit, b.writable, .inr (by simp), ?_⟩⟩
      simp [e1, e2]
    · refine ⟨_, _, _, rfl, ⟨b.limit, b.writable, b.pos, ?_⟩⟩
      simp [e1]
  · refine ⟨_, _, _, rfl, ⟨a.limit, a.writable, a.pos, ?_⟩⟩
    simp [a.content]

theorem run_end (chunk : Nat) (cd : Codec) : ∀ (ops : List TOp) (d : Disk) (h : Handle) (c : Bytes),
    (∀ o ∈ ops, isWrite o = true) → AtEnd d h c →
    ∃ d' h', (tRun chunk ⟨⟨d, some h⟩, cd⟩ ops).1 = ⟨⟨d', some h'⟩, cd⟩ ∧ AtEnd d' h' (c ++ written cd ops) := by
  intro ops
  induction ops with
  | nil => intro d h c _ a; exact ⟨d, h, rfl, by simpa [written] using a⟩
  | cons o ops ih =>
    intro d h c ho a
    have hops : ∀ o ∈ ops, isWrite o = true := fun x hx => ho x (List.mem_cons_of_mem _ hx)
    have ho' := ho o (by simp)
    cases o with
    | write t =>
      obtain ⟨d1, h1, n, e, b⟩ := fileWrite_end chunk a (encode cd t)
      obtain ⟨d2, h2, e2, b2⟩ := ih d1 h1 _ hops b
      refine ⟨d2, h2, ?_, ?_⟩
      · simp only [tRun, tStep, e]; exact e2
      · simpa [written] using b2
    | writeLine t =>
      obtain ⟨d1, h1, n, e, b⟩ := fileWrite_end chunk a (encode cd t)
      obtain ⟨d3, h3, n3, e3, b3⟩ := fileWrite_end chunk b [10]
      obtain ⟨d2, h2, e2, b2⟩ := ih d3 h3 _ hops b3
      refine ⟨d2, h2, ?_, ?_⟩
      · simp only [tRun, tStep, e, e3]; exact e2
      · simpa [written] using b2
    | _ => cases ho'

end Verif.TextF
