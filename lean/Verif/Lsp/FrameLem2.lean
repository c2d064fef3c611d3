import Verif.Lsp.FrameLem

namespace Verif.Lsp

/-- What the server knows when it has handled the messages before `fs` and has received `R` of the
    bytes of these. -/
def Inv (fs : List Frame) (R : List Char) (s : Rx) : Prop :=
  R <+: stream fs ∧
  ((s.msg = {} ∧ s.buf = { data := R, pos := 0 } ∧
      (s.pending = false → ∀ f fs', fs = f :: fs' → R.length < f.header.length)) ∨
   (∃ f fs' c, fs = f :: fs' ∧ s.pending = false ∧ R = f.header ++ c ∧
      c.length < f.content.length ∧ s.msg = { f.msg with content := c } ∧
      s.buf = { data := R, pos := R.length }))

theorem stream_cons (f : Frame) (fs : List Frame) : stream (f :: fs) = f.header ++ (f.content ++ stream fs) := by
  simp [stream, Frame.text]

theorem header_pos (f : Frame) : 0 < f.header.length := by
  unfold Frame.header
  rw [crlf]
  simp only [List.length_append, List.length_cons]
  omega

theorem isValid_msg (f : Frame) (c : List Char) : ({ f.msg with content := c } : Msg).isValid = true := by
  simp [Msg.isValid, (msg_content f).2.1]

theorem isComplete_msg (f : Frame) (c : List Char) :
    ({ f.msg with content := c } : Msg).isComplete = decide (f.content.length ≤ c.length) := by
  unfold Msg.isComplete
  rw [isValid_msg]
  simp only [Bool.true_and, (msg_content f).2.1]
  simp

theorem prefix_take {α} (a b c : List α) (h : a <+: b ++ c) : a.take b.length <+: b := by
  have h1 : a.take b.length <+: b ++ c := (List.take_prefix _ _).trans h
  exact List.prefix_of_prefix_length_le h1 (List.prefix_append _ _) (by simp; omega)

/-- When the content is being read: `c` and then `d` are next. -/
theorem content_take (f : Frame) (fs : List Frame) (c : List Char)
    (h : f.header ++ c <+: stream (f :: fs)) :
    c.take f.content.length <+: f.content ∧
    (f.content.length ≤ c.length → c = f.content ++ c.drop f.content.length ∧
      c.drop f.content.length <+: stream fs) := by
  rw [stream_cons, List.prefix_append_right_inj] at h
  have h1 := prefix_take _ _ _ h
  refine ⟨h1, fun hl => ?_⟩
  have e : c.take f.content.length = f.content := by
    apply h1.eq_of_length
    simp; omega
  have e2 : c = f.content ++ c.drop f.content.length := by
    conv => lhs; rw [← List.take_append_drop f.content.length c, e]
  refine ⟨e2, ?_⟩
  rw [e2, List.prefix_append_right_inj] at h
  exact h

/-- The end of a message that has arrived up to `c`. -/
theorem finish (f : Frame) (fs : List Frame) (c : List Char) (b : Buf)
    (hb : b = { data := f.header ++ c, pos := min (f.header ++ c).length (f.header.length + f.content.length) })
    (h : f.header ++ c <+: stream (f :: fs)) :
    let m : Msg := { f.msg with content := c.take f.content.length }
    let r : Rx × List Event := if m.isComplete then
      ({ buf := { data := b.data.drop b.pos, pos := 0 }, msg := {}, pending := true },
       [.message m.content m.codec])
      else ({ buf := b, msg := m, pending := false }, [])
    (∃ R', r.2 = [f.event] ∧ f.header ++ c = f.text ++ R' ∧ Inv fs R' r.1) ∨
    (r.2 = [] ∧ Inv (f :: fs) (f.header ++ c) r.1) := by
  intro m r
  obtain ⟨h1, h2⟩ := content_take f fs c h
  by_cases hl : f.content.length ≤ c.length
  · left
    obtain ⟨e, hp⟩ := h2 hl
    have et : c.take f.content.length = f.content := by
      rw [e]; simp
    have hm : m.isComplete = true := by
      show ({ f.msg with content := c.take f.content.length } : Msg).isComplete = true
      rw [isComplete_msg]; simp; omega
    refine ⟨c.drop f.content.length, ?_, ?_, hp, Or.inl ⟨?_, ?_, ?_⟩⟩
    · show (if m.isComplete then _ else _ : Rx × List Event).2 = _
      rw [if_pos hm]
      simp only [Frame.event, List.cons.injEq, and_true, Event.message.injEq, m, et, true_and]
      exact (msg_content f).2.2
    · conv => lhs; rw [e]
      rw [Frame.text, List.append_assoc]
    · show (if m.isComplete then _ else _ : Rx × List Event).1.msg = _
      rw [if_pos hm]
    · show (if m.isComplete then _ else _ : Rx × List Event).1.buf = _
      rw [if_pos hm, hb]
      simp only [Buf.mk.injEq, and_true]
      have : min (f.header ++ c).length (f.header.length + f.content.length)
          = f.header.length + f.content.length := by
        simp; omega
      rw [this, ← List.drop_drop, List.drop_left]
    · show (if m.isComplete then _ else _ : Rx × List Event).1.pending = _ → _
      rw [if_pos hm]
      intro hc; cases hc
  · right
    have hm : m.isComplete = false := by
      show ({ f.msg with content := c.take f.content.length } : Msg).isComplete = false
      rw [isComplete_msg]; simp; omega
    have hm' : ¬ m.isComplete = true := by rw [hm]; decide
    have et : c.take f.content.length = c := List.take_of_length_le (by omega)
    refine ⟨?_, h, Or.inr ⟨f, fs, c, rfl, ?_, rfl, by omega, ?_, ?_⟩⟩
    · show (if m.isComplete then _ else _ : Rx × List Event).2 = _
      rw [if_neg hm']
    · show (if m.isComplete then _ else _ : Rx × List Event).1.pending = _
      rw [if_neg hm']
    · show (if m.isComplete then _ else _ : Rx × List Event).1.msg = _
      rw [if_neg hm']
      show ({ f.msg with content := c.take f.content.length } : Msg) = _
      rw [et]
    · show (if m.isComplete then _ else _ : Rx × List Event).1.buf = _
      rw [if_neg hm', hb]
      have : min (f.header ++ c).length (f.header.length + f.content.length)
          = (f.header ++ c).length := by
        simp; omega
      rw [this]

/-- `parse` when no message has begun. -/
theorem parse_fresh (known : List Char → Bool) (R : List Char) :
    parse known { data := R, pos := 0 } {} =
      match headerLoop known {} none 0 (linesOf R) with
      | (some (n, m'), e) =>
        if m'.isValid then
          ({ data := R, pos := min R.length (n + m'.contentLength.toNat) },
            { m' with content := (R.drop n).take m'.contentLength.toNat }, e)
        else ({ data := R, pos := n }, m', e)
      | (none, e) => ({ data := R, pos := 0 }, {}, e) := by
  unfold parse
  have : (({} : Msg).isValid) = false := by decide
  rw [this]
  simp only [Bool.false_eq_true, if_false, List.drop_zero, Nat.zero_add, Buf.read]
  generalize headerLoop known {} none 0 (linesOf R) = q
  obtain ⟨_ | ⟨n, m'⟩, e⟩ := q <;> rfl

theorem receive_fresh (known : List Char → Bool) (s : Rx) (R x : List Char)
    (hm : s.msg = {}) (hb : s.buf = { data := R, pos := 0 }) :
    receive true known s x =
      match parse known { data := R ++ x, pos := 0 } {} with
      | (b', m', some e) => ({ buf := b', msg := m', pending := false }, [.parseError e])
      | (b', m', none) =>
        if m'.isComplete then
          ({ buf := { data := b'.data.drop b'.pos, pos := 0 }, msg := {}, pending := true },
           [.message m'.content m'.codec])
        else ({ buf := b', msg := m', pending := false }, []) := by
  unfold receive
  rw [hm, hb]
  simp only [Buf.write, if_true]
  generalize parse known { data := R ++ x, pos := 0 } {} = q
  obtain ⟨b', m', _ | e⟩ := q <;> rfl

/-- Nothing, or not the whole header, of the next message is there. -/
theorem receive_part (known : List Char → Bool) (s : Rx) (R x : List Char)
    (hm : s.msg = {}) (hb : s.buf = { data := R, pos := 0 })
    (h : (headerLoop known {} none 0 (linesOf (R ++ x))).1 = none) :
    receive true known s x = ({ buf := { data := R ++ x, pos := 0 }, msg := {}, pending := false },
      match (headerLoop known {} none 0 (linesOf (R ++ x))).2 with
      | some e => [.parseError e]
      | none => []) := by
  rw [receive_fresh known s R x hm hb, parse_fresh]
  generalize headerLoop known {} none 0 (linesOf (R ++ x)) = q at h
  obtain ⟨a, e⟩ := q
  simp only at h
  subst h
  cases e with
  | none =>
    have : (({} : Msg).isComplete) = false := by decide
    simp only [this, Bool.false_eq_true, if_false]
  | some e => rfl

theorem step (known : List Char → Bool) (fs : List Frame) (hfs : ∀ f ∈ fs, f.Ok known)
    (R x : List Char) (s : Rx) (hi : Inv fs R s) (hx : R ++ x <+: stream fs) :
    (∃ f fs' R', fs = f :: fs' ∧ (receive true known s x).2 = [f.event] ∧ R ++ x = f.text ++ R' ∧
      Inv fs' R' (receive true known s x).1) ∨
    (Inv fs (R ++ x) (receive true known s x).1 ∧
      ((receive true known s x).2 = [] ∨
       ∃ f fs' e, fs = f :: fs' ∧ (R ++ x).length < f.header.length ∧ R ++ x <+: f.header ∧
        (headerLoop known {} none 0 (linesOf (R ++ x))).2 = some e ∧
        (receive true known s x).2 = [.parseError e])) := by
  obtain ⟨hR, ⟨hm, hb, hp⟩ | ⟨f, fs', c, rfl, hp, rfl, hc, hm, hb⟩⟩ := hi
  · cases fs with
    | nil =>
      right
      have h0 : R ++ x = [] := by
        simpa [stream] using hx
      have hl : (headerLoop known {} none 0 (linesOf (R ++ x))) = (none, none) := by rw [h0]; rfl
      have hr := receive_part known s R x hm hb (by rw [hl])
      rw [hr, hl]
      refine ⟨⟨hx, Or.inl ⟨rfl, rfl, ?_⟩⟩, Or.inl rfl⟩
      intro _ f fs' h; cases h
    | cons f fs =>
      have hf := hfs f (by simp)
      rcases Nat.lt_or_ge (R ++ x).length f.header.length with hlt | hge
      · right
        have hpre : R ++ x <+: f.header := by
          rw [stream_cons] at hx
          exact List.prefix_of_prefix_length_le hx (List.prefix_append _ _) (Nat.le_of_lt hlt)
        have hn := headerLoop_part known f hf (R ++ x) hpre hlt {} none 0
        have hr := receive_part known s R x hm hb hn
        rw [hr]
        refine ⟨⟨hx, Or.inl ⟨rfl, rfl, ?_⟩⟩, ?_⟩
        · intro _ g gs hg
          cases hg
          exact hlt
        · cases he : (headerLoop known {} none 0 (linesOf (R ++ x))).2 with
          | none => left; rfl
          | some e => right; exact ⟨f, fs, e, rfl, hlt, hpre, rfl, rfl⟩
      · have hpre : f.header <+: R ++ x := by
          rw [stream_cons] at hx
          exact List.prefix_of_prefix_length_le (List.prefix_append _ _) hx hge
        obtain ⟨c, hc⟩ := hpre
        have hl := headerLoop_header known f hf c
        have fin := finish f fs c _ rfl (by rw [hc]; exact hx)
        have hr : receive true known s x = (
            let m : Msg := { f.msg with content := c.take f.content.length }
            let b : Buf := { data := f.header ++ c, pos := min (f.header ++ c).length (f.header.length + f.content.length) }
            if m.isComplete then
              ({ buf := { data := b.data.drop b.pos, pos := 0 }, msg := {}, pending := true },
               [.message m.content m.codec])
            else ({ buf := b, msg := m, pending := false }, [])) := by
          rw [receive_fresh known s R x hm hb, parse_fresh, ← hc, hl]
          have hv := isValid_msg f []
          have e0 : ({ f.msg with content := [] } : Msg) = f.msg := by
            rw [← (msg_content f).1]
          rw [e0] at hv
          simp only [hv, if_true, (msg_content f).2.1, Int.toNat_natCast, List.drop_left]
        rw [hr]
        rcases fin with ⟨R', h1, h2, h3⟩ | ⟨h1, h2⟩
        · left
          exact ⟨f, fs, R', rfl, h1, by rw [← hc]; exact h2, h3⟩
        · right
          rw [← hc]
          exact ⟨h2, Or.inl h1⟩
  · have fin := finish f fs' (c ++ x) _ rfl (by rw [← List.append_assoc]; exact hx)
    have hr : receive true known s x = (
        let m : Msg := { f.msg with content := (c ++ x).take f.content.length }
        let b : Buf := { data := f.header ++ (c ++ x), pos := min (f.header ++ (c ++ x)).length (f.header.length + f.content.length) }
        if m.isComplete then
          ({ buf := { data := b.data.drop b.pos, pos := 0 }, msg := {}, pending := true },
           [.message m.content m.codec])
        else ({ buf := b, msg := m, pending := false }, [])) := by
      unfold receive
      rw [hm, hb]
      simp only [Buf.write, if_true]
      unfold parse
      rw [if_pos (isValid_msg f c)]
      have e1 : (f.msg.contentLength - (c.length : Int)).toNat = f.content.length - c.length := by
        rw [(msg_content f).2.1]; omega
      have e2 : ((f.header ++ c ++ x).drop (f.header ++ c).length).take (f.content.length - c.length)
          = x.take (f.content.length - c.length) := by
        rw [List.drop_left]
      have e3 : c ++ x.take (f.content.length - c.length) = (c ++ x).take f.content.length := by
        rw [List.take_append, List.take_of_length_le (Nat.le_of_lt hc)]
      have e4 : (f.header ++ c).length + (f.content.length - c.length)
          = f.header.length + f.content.length := by
        rw [List.length_append]; omega
      simp only [Buf.read, e1, e2, e3, e4]
      simp only [List.append_assoc]
    rw [hr]
    rcases fin with ⟨R', h1, h2, h3⟩ | ⟨h1, h2⟩
    · left
      exact ⟨f, fs', R', rfl, h1, by rw [List.append_assoc]; exact h2, h3⟩
    · right
      rw [List.append_assoc]
      exact ⟨h2, Or.inl h1⟩

theorem inv_init (fs : List Frame) : Inv fs [] {} := by
  refine ⟨List.nil_prefix, Or.inl ⟨rfl, rfl, ?_⟩⟩
  intro _ f _ _
  exact header_pos f

theorem run (known : List Char → Bool) (xs : List (List Char)) : ∀ (fs : List Frame)
    (_ : ∀ f ∈ fs, f.Ok known) (R : List Char) (s : Rx), Inv fs R s →
    R ++ xs.flatten <+: stream fs →
    ∃ done rest R', fs = done ++ rest ∧
      (receiveAll true known s xs).2.filter Event.isMessage = done.map Frame.event ∧
      R ++ xs.flatten = stream done ++ R' ∧ Inv rest R' (receiveAll true known s xs).1 := by
  induction xs with
  | nil =>
    intro fs _ R s hi _
    exact ⟨[], fs, R, rfl, rfl, by simp [stream], hi⟩
  | cons x xs ih =>
    intro fs hfs R s hi hx
    rw [List.flatten_cons, ← List.append_assoc] at hx
    have hx1 : R ++ x <+: stream fs := (List.prefix_append _ _).trans hx
    simp only [receiveAll, List.filter_append]
    rcases step known fs hfs R x s hi hx1 with ⟨f, fs', R', rfl, h1, h2, h3⟩ | ⟨h1, h2⟩
    · have hx2 : R' ++ xs.flatten <+: stream fs' := by
        rw [h2] at hx
        have : stream (f :: fs') = f.text ++ stream fs' := by simp [stream]
        rw [this, List.append_assoc, List.prefix_append_right_inj] at hx
        exact hx
      obtain ⟨done, rest, R2, e1, e2, e3, e4⟩ := ih fs' (fun g hg => hfs g (by simp [hg])) R' _ h3 hx2
      refine ⟨f :: done, rest, R2, by rw [e1]; rfl, ?_, ?_, e4⟩
      · rw [e2, h1]
        rfl
      · rw [List.flatten_cons, ← List.append_assoc, h2, List.append_assoc, e3]
        simp [stream]
    · obtain ⟨done, rest, R2, e1, e2, e3, e4⟩ := ih fs hfs (R ++ x) _ h1 hx
      refine ⟨done, rest, R2, e1, ?_, ?_, e4⟩
      · rw [e2]
        rcases h2 with h2 | ⟨_, _, _, _, _, _, _, h2⟩ <;> rw [h2] <;> rfl
      · rw [← e3]; simp

theorem inv_done (rest : List Frame) (s : Rx) (h : Inv rest (stream rest) s)
    (hp : s.pending = false) : rest = [] := by
  cases rest with
  | nil => rfl
  | cons f fs =>
    exfalso
    obtain ⟨_, ⟨_, _, h3⟩ | ⟨g, gs, c, e, _, h4, h5, _⟩⟩ := h
    · have := h3 hp f fs rfl
      rw [stream_cons] at this
      simp at this
      omega
    · cases e
      rw [stream_cons] at h4
      have := congrArg List.length h4
      simp at this
      omega

end Verif.Lsp
