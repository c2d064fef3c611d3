import Verif.TextF.Lem

/-! The binary file with its buffer behaves like the ideal file. -/
namespace Verif.TextF

/-- The state of the object and of the ideal file. -/
def Rel (s : St) (i : Ideal) : Prop :=
  s.disk.limit = none ∧
  match s.handle with
  | none => i.open_ = none ∧ i.bytes = s.disk.bytes
  | some h => h.append = false ∧ i.open_ = some (h.readable, h.writable, h.pos + h.buf.length) ∧
      i.bytes = splice s.disk.bytes h.pos h.buf ∧ (h.writable = false → h.buf = [])

theorem fileWrite_eq (chunk : Nat) {d : Disk} {h : Handle} {x : Bytes} (hl : d.limit = none)
    (ha : h.append = false) (hw : h.writable = true) :
    ∃ d' h' n, fileWrite chunk d h x = (d', h', some n) ∧ d'.limit = none ∧ h'.append = false ∧
      h'.readable = h.readable ∧ h'.writable = h.writable ∧
      h'.pos + h'.buf.length = h.pos + h.buf.length + x.length ∧
      splice d'.bytes h'.pos h'.buf = splice d.bytes h.pos (h.buf ++ x) := by
  unfold fileWrite
  rw [if_neg (by simp [hw])]
  split
  · simp only [flush_eq hl ha]
    split
    · rename_i hlen
      have hx : x.length ≠ 0 := by omega
      simp only [sysWrite, fits, ha, hl, Bool.false_eq_true, if_false, hx]
      refine ⟨_, _, _, rfl, rfl, rfl, rfl, rfl, ?_, ?_⟩
      · simp
      · simp only [splice_nil, List.take_of_length_le (Nat.le_refl _), splice_splice]
    · refine ⟨_, _, _, rfl, hl, ha, rfl, rfl, rfl, ?_⟩
      exact splice_splice _ _ _ _
  · refine ⟨_, _, _, rfl, hl, ha, rfl, rfl, ?_, rfl⟩
    simp [Nat.add_assoc]

theorem step_rel (chunk : Nat) {s : St} {i : Ideal} (r : Rel s i) (op : BOp) :
    (bStep chunk s op).2 = (iStep i op).2 ∧ Rel (bStep chunk s op).1 (iStep i op).1 := by
  obtain ⟨d, hd⟩ := s
  obtain ⟨hl, hr⟩ := r
  cases hd with
  | none =>
    obtain ⟨e1, e2⟩ := hr
    simp only [bStep, iStep, e1]
    exact ⟨trivial, hl, e1, e2⟩
  | some h =>
    obtain ⟨ha, e1, e2, e3⟩ := hr
    have hf := flush_eq hl ha
    simp only at hl e2
    cases op with
    | close =>
      simp only [bStep, iStep, e1, fileClose, hf]
      exact ⟨trivial, hl, rfl, e2⟩
    | atEof =>
      simp only [bStep, iStep, e1, hf]
      exact ⟨by rw [e2]; simp, hl, ha, e1, by rw [e2, splice_nil], fun _ => rfl⟩
    | size =>
      simp only [bStep, iStep, e1, hf]
      exact ⟨by rw [e2]; simp, hl, ha, e1, by rw [e2, splice_nil], fun _ => rfl⟩
    | resize n =>
      simp only [bStep, iStep, e1, hf]
      cases hw : h.writable with
      | false => simp only [if_true, Bool.false_eq_true, if_false]; exact ⟨trivial, hl, ha, e1, e2, e3⟩
      | true =>
        simp only [if_true, if_false, Bool.true_eq_false]
        exact ⟨trivial, hl, ha, by simp [hw], by rw [e2, splice_nil], fun _ => rfl⟩
    | pos =>
      simp only [bStep, iStep, e1, filePos]
      exact ⟨trivial, hl, ha, e1, e2, e3⟩
    | seek n =>
      simp only [bStep, iStep, e1, hf]
      exact ⟨trivial, hl, ha, rfl, by rw [e2, splice_nil], fun _ => rfl⟩
    | read n =>
      simp only [bStep, iStep, e1, hf]
      cases hrd : h.readable with
      | false => simp only [if_true, Bool.false_eq_true, if_false]; exact ⟨trivial, hl, ha, e1, e2, e3⟩
      | true =>
        simp only [if_true, if_false, Bool.true_eq_false]
        exact ⟨by rw [e2], hl, ha, by simp [hrd, e2], by rw [e2, splice_nil], fun _ => rfl⟩
    | write x =>
      cases hw : h.writable with
      | false =>
        simp only [bStep, iStep, e1, fileWrite, hw, if_true, Bool.false_eq_true, if_false]
        exact ⟨trivial, hl, ha, e1, e2, e3⟩
      | true =>
        obtain ⟨d', h', n, f1, f2, f3, f4, f5, f6, f7⟩ := fileWrite_eq chunk (x := x) hl ha hw
        simp only [bStep, iStep, e1, hw, f1, if_true]
        refine ⟨trivial, f2, f3, ?_, ?_, ?_⟩
        · rw [f4, f5, hw, f6]
        · rw [f7, e2]; exact splice_splice _ _ _ _
        · intro e; rw [f5, hw] at e; cases e

theorem run_rel (chunk : Nat) : ∀ (ops : List BOp) (s : St) (i : Ideal), Rel s i →
    (bRun chunk s ops).2 = (iRun i ops).2 ∧ Rel (bRun chunk s ops).1 (iRun i ops).1 := by
  intro ops
  induction ops with
  | nil => intro s i r; exact ⟨rfl, r⟩
  | cons o os ih =>
    intro s i r
    obtain ⟨a, b⟩ := step_rel chunk r o
    obtain ⟨c, e⟩ := ih _ _ b
    simp only [bRun, iRun]
    exact ⟨by rw [a, c], e⟩

end Verif.TextF
