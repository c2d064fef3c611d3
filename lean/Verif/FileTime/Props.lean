/-!
# Model of `FileTime` on Unix (src/lib/corelib/tools/filetime.cpp) and property C05
-/

namespace Verif.FileTime

/-- `FileTime::InternalType` on Unix, a `timespec` (filetime.h:76): seconds may be negative
(before 1970), nanoseconds are in `[0, 10^9)`. -/
structure FileTime where
  sec : Int
  nsec : Int
  deriving DecidableEq, Repr

/-- `FileTime::FileTime()`, filetime.cpp:152-155, and `clear()`, 176-179. -/
def invalid : FileTime := ⟨0, 0⟩

/-- `FileTime::FileTime(const InternalType &)`, filetime.cpp:157-161: a time with zero seconds is
normalised, as `stat()` sets only the first member for non-existing files. -/
def ofTimespec (sec nsec : Int) : FileTime := if sec = 0 then ⟨0, 0⟩ else ⟨sec, nsec⟩

/-- `FileTime::compare`, filetime.cpp:163-174. -/
def compare (a b : FileTime) : Int :=
  if a.sec < b.sec then -1
  else if a.sec > b.sec then 1
  else if a.nsec < b.nsec then -1
  else if a.nsec > b.nsec then 1
  else 0

/-- `operator<`, filetime.h:86. -/
def lt (a b : FileTime) : Bool := compare a b < 0
/-- `operator>`, filetime.h:87. -/
def gt (a b : FileTime) : Bool := compare a b > 0
/-- `operator==`, filetime.h:90. -/
def eq (a b : FileTime) : Bool := compare a b == 0
/-- `FileTime::isValid`, filetime.cpp:181-184. -/
def isValid (a : FileTime) : Bool := !eq a invalid
/-- `FileTime::oldestTime`, filetime.cpp:193-196. -/
def oldestTime : FileTime := ofTimespec 1 0

/-! ## Specification -/

/-- Chronological order. -/
def Before (a b : FileTime) : Prop := a.sec < b.sec ∨ (a.sec = b.sec ∧ a.nsec < b.nsec)

theorem lt_iff (a b : FileTime) : lt a b = true ↔ Before a b := by
  simp only [lt, compare, Before]
  grind

theorem gt_iff (a b : FileTime) : gt a b = true ↔ Before b a := by
  simp only [gt, compare, Before]
  grind

theorem eq_iff (a b : FileTime) : eq a b = true ↔ a = b := by
  obtain ⟨a1, a2⟩ := a
  obtain ⟨b1, b2⟩ := b
  simp only [eq, compare, beq_iff_eq, FileTime.mk.injEq]
  (repeat' split) <;> omega

/-- C05, order: `<` is the chronological order, a strict total order whose equality is `==`. -/
theorem C05_total_order (a b c : FileTime) :
    (lt a b = true ↔ Before a b) ∧ (eq a b = true ↔ a = b) ∧ gt a b = lt b a ∧
    lt a a = false ∧ (lt a b = true → lt b c = true → lt a c = true) ∧
    (lt a b = true ∨ a = b ∨ lt b a = true) := by
  refine ⟨lt_iff a b, eq_iff a b, ?_, ?_, ?_, ?_⟩
  · rw [Bool.eq_iff_iff, gt_iff, lt_iff]
  · rw [Bool.eq_false_iff, ne_eq, lt_iff]; simp only [Before]; omega
  · simp only [lt_iff, Before]; omega
  · simp only [lt_iff, Before]
    obtain ⟨a1, a2⟩ := a
    obtain ⟨b1, b2⟩ := b
    simp only [FileTime.mk.injEq]; omega

/-- Full statement of the second half of C05, which does **not** hold on Unix: every valid time is
newer than the invalid one. -/
def InvalidIsOldest : Prop :=
  ∀ sec nsec : Int, 0 ≤ nsec → nsec < 1000000000 →
    isValid (ofTimespec sec nsec) = true → lt invalid (ofTimespec sec nsec) = true

/-- C05, findings: a file modified before 1970 is valid but older than "no file at all", and a file
modified in the first second of 1970 counts as non-existing. -/
theorem C05_epoch_findings :
    ¬ InvalidIsOldest ∧ (∀ nsec, isValid (ofTimespec 0 nsec) = false) := by
  constructor
  · intro h; exact absurd (h (-1) 0 (by decide) (by decide) (by decide)) (by decide)
  · intro nsec; simp [ofTimespec]; decide

/-- C05, proved part: for times not before the epoch, the invalid time is the minimum, a time is
valid iff its seconds are not zero, and `oldestTime()` is valid and no newer than any valid time.
Missing with respect to `InvalidIsOldest`: times before 1970. -/
theorem C05_invalid_minimum_partial (sec nsec : Int) (hs : 0 ≤ sec) (hn : 0 ≤ nsec) :
    (isValid (ofTimespec sec nsec) = true ↔ sec ≠ 0) ∧
    (isValid (ofTimespec sec nsec) = true → lt invalid (ofTimespec sec nsec) = true ∧
      lt (ofTimespec sec nsec) oldestTime = false) ∧ isValid oldestTime = true := by
  have hv : isValid (ofTimespec sec nsec) = true ↔ sec ≠ 0 := by
    unfold ofTimespec
    split
    · rename_i h; simp [h]; decide
    · rename_i h
      simp only [isValid, Bool.not_eq_true', Bool.eq_false_iff, ne_eq, eq_iff, invalid,
        FileTime.mk.injEq, h, false_and, not_false_eq_true]
  refine ⟨hv, fun h => ?_, by decide⟩
  have hne := hv.mp h
  constructor
  · rw [lt_iff]; simp only [ofTimespec, hne, if_false, Before, invalid]; omega
  · rw [Bool.eq_false_iff, ne_eq, lt_iff]
    have : oldestTime = ⟨1, 0⟩ := by decide
    simp only [ofTimespec, hne, if_false, Before, this]; omega

example : (0 : Int) ≤ 1700000000 ∧ isValid (ofTimespec 1700000000 5) = true ∧
    lt invalid (ofTimespec 1700000000 5) = true := by decide

end Verif.FileTime
