import Verif.TextF.Spec

namespace Verif.TextF

theorem splice_nil (b : Bytes) (p : Nat) : splice b p [] = b := by simp [splice]

theorem splice_eq {b : Bytes} {p : Nat} {x : Bytes} (hx : x ≠ []) :
    splice b p x = b.take p ++ List.replicate (p - b.length) 0 ++ x ++ b.drop (p + x.length) := by
  simp [splice, hx]

theorem splice_splice (b : Bytes) (p : Nat) (x y : Bytes) :
    splice (splice b p x) (p + x.length) y = splice b p (x ++ y) := by
  by_cases hx : x = []
  · subst hx; simp [splice_nil]
  by_cases hy : y = []
  · subst hy; simp [splice_nil]
  have hxy : x ++ y ≠ [] := by simp [hx]
  rw [splice_eq hxy, splice_eq hy, splice_eq hx]
  have h1 : (b.take p ++ List.replicate (p - b.length) 0).length = p := by
    rw [List.length_append, List.length_take, List.length_replicate]; omega
  have h2 : (b.take p ++ List.replicate (p - b.length) 0 ++ x).length = p + x.length := by
    rw [List.length_append, h1]
  have h3 : p + x.length - (b.take p ++ List.replicate (p - b.length) 0 ++ x ++ b.drop (p + x.length)).length = 0 := by
    rw [List.length_append, h2]; omega
  rw [h3]
  rw [List.take_append_of_le_length (Nat.le_of_eq h2.symm), List.take_of_length_le (Nat.le_of_eq h2)]
  have h4 : (b.take p ++ List.replicate (p - b.length) 0 ++ x ++ b.drop (p + x.length)).drop (p + x.length + y.length)
      = b.drop (p + (x ++ y).length) := by
    rw [List.drop_append, h2, List.drop_eq_nil_of_le (by rw [h2]; omega), List.nil_append, List.drop_drop]
    congr 1
    rw [List.length_append]; omega
  rw [h4]
  simp

theorem splice_end (b x : Bytes) : splice b b.length x = b ++ x := by
  by_cases hx : x = []
  · subst hx; simp [splice_nil]
  · rw [splice_eq hx]
    simp

theorem length_le_splice (b : Bytes) (p : Nat) (x : Bytes) : b.length ≤ (splice b p x).length := by
  by_cases hx : x = []
  · subst hx; rw [splice_nil]; exact Nat.le_refl _
  · rw [splice_eq hx]
    simp only [List.length_append, List.length_take, List.length_replicate, List.length_drop]
    omega

/-- Where the buffer goes. -/
def base (d : Disk) (h : Handle) : Nat := if h.append then d.bytes.length else h.pos

theorem flush_eq {d : Disk} {h : Handle} (hl : d.limit = none) (hb : h.append = false) :
    flush d h = ({ d with bytes := splice d.bytes h.pos h.buf },
      { h with pos := h.pos + h.buf.length, buf := [] }, true) := by
  unfold flush
  split
  · rename_i e
    rw [e, splice_nil]
    simp only [List.length_nil, Nat.add_zero]
    rw [show ({ h with buf := [] } : Handle) = h by rw [← e]]
  · simp [sysWrite, fits, hl, hb]

end Verif.TextF
