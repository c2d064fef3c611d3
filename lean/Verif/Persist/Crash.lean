import Verif.Persist.Props

/-! # C12: crashes while the build graph is being saved

`TopLevelProject::store` (language.cpp:647-670) on the level of the file: a `QFile` with a write
buffer, of which the operating system accepts any part at any time.  A crash of the process loses
the buffer and leaves the file; so does an exception, whatever the file's destructor may still
flush. -/

namespace Verif.Persist

open Verif.DS

/-- `QBS_PERSISTENCE_MAGIC`, "QBSPERSISTENCE-147" (persistence.cpp:55). -/
def magic : Bytes :=
  [81, 66, 83, 80, 69, 82, 83, 73, 83, 84, 69, 78, 67, 69, 45, 49, 52, 55]

/-- What `setupWriteStream` writes first (persistence.cpp:117): as many zeros. -/
def placeholder : Bytes := putBytes (some (List.replicate magic.length 0))

/-- What `finalizeWriteStream` writes over it (persistence.cpp:130). -/
def header : Bytes := putBytes (some magic)

/-- An open file: what is on disk, the position, and the write buffer. -/
structure QF where
  disk : Bytes
  pos : Nat
  buf : Bytes

/-- Bytes written at a position replace what is there. -/
def writeAt (file : Bytes) (pos : Nat) (b : Bytes) : Bytes :=
  file.take pos ++ b ++ file.drop (pos + b.length)

/-- The operating system takes the first `n` bytes of the buffer. -/
def QF.flush (f : QF) (n : Nat) : QF :=
  ⟨writeAt f.disk f.pos (f.buf.take n), f.pos + (f.buf.take n).length, f.buf.drop n⟩

/-- Where the saving process is. -/
inductive SaveState where
  /-- not started; the file may exist -/
  | before (old : Option Bytes)
  /-- the old file has been removed (persistence.cpp:105-108) -/
  | removed
  /-- writing placeholder, configuration and objects; `todo` is what remains -/
  | body (f : QF) (todo : Bytes)
  /-- a write failed, the stream status is not `Ok`: `finalizeWriteStream` throws (127-128) -/
  | failed (f : QF)
  /-- `seek(0)` was successful, the magic is being written (129-130) -/
  | magicAt0 (f : QF) (todo : Bytes)
  /-- `seek(0)` failed, which nobody checks; the magic is written where the file is positioned -/
  | magicAtEnd (f : QF) (todo : Bytes)
  /-- flushed (135) -/
  | done (f : QF)
  /-- the flush failed and the file was removed (136-137) -/
  | gone

/-- What is on disk. -/
def SaveState.disk : SaveState → Option Bytes
  | .before old => old
  | .removed => none
  | .body f _ => some f.disk
  | .failed f => some f.disk
  | .magicAt0 f _ => some f.disk
  | .magicAtEnd f _ => some f.disk
  | .done f => some f.disk
  | .gone => none

/-- Steps of saving `data`, the bytes written between `setupWriteStream` and `finalizeWriteStream`
(the head data and the objects). -/
inductive SaveStep (data : Bytes) : SaveState → SaveState → Prop where
  | remove {old} : SaveStep data (.before old) .removed
  | open : SaveStep data .removed (.body ⟨[], 0, []⟩ (placeholder ++ data))
  | write {f b todo} : SaveStep data (.body f (b :: todo)) (.body { f with buf := f.buf ++ [b] } todo)
  | flush {f todo} (n : Nat) : SaveStep data (.body f todo) (.body (f.flush n) todo)
  | fail {f todo} : SaveStep data (.body f todo) (.failed f)
  | failFlush {f} (n : Nat) : SaveStep data (.failed f) (.failed (f.flush n))
  | seek {f} (h : f.buf = []) : SaveStep data (.body f []) (.magicAt0 { f with pos := 0 } header)
  | seekFails {f} : SaveStep data (.body f []) (.magicAtEnd f header)
  | writeM {f b todo} :
      SaveStep data (.magicAt0 f (b :: todo)) (.magicAt0 { f with buf := f.buf ++ [b] } todo)
  | flushM {f todo} (n : Nat) : SaveStep data (.magicAt0 f todo) (.magicAt0 (f.flush n) todo)
  | finish {f} (h : f.buf = []) : SaveStep data (.magicAt0 f []) (.done f)
  | finishFails {f todo} : SaveStep data (.magicAt0 f todo) .gone
  | writeE {f b todo} :
      SaveStep data (.magicAtEnd f (b :: todo)) (.magicAtEnd { f with buf := f.buf ++ [b] } todo)
  | flushE {f todo} (n : Nat) : SaveStep data (.magicAtEnd f todo) (.magicAtEnd (f.flush n) todo)
  | finishE {f} (h : f.buf = []) : SaveStep data (.magicAtEnd f []) (.done f)
  | finishFailsE {f todo} : SaveStep data (.magicAtEnd f todo) .gone

/-- The states saving can reach. -/
inductive Saving (data : Bytes) (old : Option Bytes) : SaveState → Prop where
  | start : Saving data old (.before old)
  | step {s t} : Saving data old s → SaveStep data s t → Saving data old t

/-- What `PersistentPool::load` makes of the file (persistence.cpp:67-95). -/
inductive Loaded where
  | noFile
  | rejected
  | accepted (rest : Bytes)
deriving DecidableEq

def openFile : Option Bytes → Loaded
  | none => .noFile
  | some bs =>
    match getBytes bs with
    | some (some m, rest) => if m = magic then .accepted rest else .rejected
    | _ => .rejected

/-! ## Proof -/

theorem header_length : header.length = 22 := rfl
theorem placeholder_length : placeholder.length = 22 := rfl

theorem writeAt_end (f b : Bytes) : writeAt f f.length b = f ++ b := by
  simp [writeAt]

theorem flush_end {f : QF} (h : f.pos = f.disk.length) (n : Nat) :
    f.flush n = ⟨f.disk ++ f.buf.take n, (f.disk ++ f.buf.take n).length, f.buf.drop n⟩ := by
  simp [QF.flush, h, writeAt_end]

/-- `f` has the beginning of `all` on disk and in the buffer. -/
def Seq (all : Bytes) (f : QF) (todo : Bytes) : Prop :=
  f.pos = f.disk.length ∧ f.disk ++ f.buf ++ todo = all

/-- `f` has the beginning of the header written over the placeholder. -/
def Over (data : Bytes) (f : QF) (todo : Bytes) : Prop :=
  ∃ w, f.pos = w.length ∧ w ++ f.buf ++ todo = header ∧
    f.disk = w ++ (placeholder ++ data).drop w.length

theorem Seq.flush {all : Bytes} {f : QF} {todo : Bytes} (h : Seq all f todo) (n : Nat) :
    Seq all (f.flush n) todo := by
  rw [flush_end h.1]
  refine ⟨rfl, ?_⟩
  simp only [List.append_assoc]
  rw [← List.append_assoc (f.buf.take n), List.take_append_drop, ← List.append_assoc]
  exact h.2

theorem Over.flush {data : Bytes} {f : QF} {todo : Bytes} (h : Over data f todo) (n : Nat) :
    Over data (f.flush n) todo := by
  obtain ⟨w, h1, h2, h3⟩ := h
  refine ⟨w ++ f.buf.take n, ?_, ?_, ?_⟩
  · simp only [QF.flush, h1, List.length_append]
  · simp only [QF.flush, List.append_assoc]
    rw [← List.append_assoc (f.buf.take n), List.take_append_drop, ← List.append_assoc]
    exact h2
  · have e1 : f.disk.take w.length = w := by rw [h3]; simp
    have e2 : ∀ n, f.disk.drop (w.length + n) = (placeholder ++ data).drop (w.length + n) := by
      intro n
      rw [h3, List.drop_append, List.drop_of_length_le (by omega), List.nil_append, List.drop_drop]
      congr 1; omega
    simp only [QF.flush, writeAt, h1, e1, e2, List.length_append]

def SInv (data : Bytes) (old : Option Bytes) : SaveState → Prop
  | .before o => o = old
  | .removed => True
  | .body f todo => Seq (placeholder ++ data) f todo
  | .failed f => ∃ todo, Seq (placeholder ++ data) f todo
  | .magicAt0 f todo => Over data f todo
  | .magicAtEnd f todo => Seq (placeholder ++ data ++ header) f todo
  | .done f => f.disk = header ++ data ∨ f.disk = placeholder ++ data ++ header
  | .gone => True

theorem sInv_step {data : Bytes} {old : Option Bytes} {s t : SaveState} (h : SInv data old s)
    (st : SaveStep data s t) : SInv data old t := by
  cases st with
  | remove => trivial
  | «open» => exact ⟨rfl, rfl⟩
  | write => exact ⟨h.1, by rw [← h.2]; simp⟩
  | flush n => exact Seq.flush h n
  | fail => exact ⟨_, h⟩
  | failFlush n => obtain ⟨t, h⟩ := h; exact ⟨t, h.flush n⟩
  | seek hb =>
    refine ⟨[], rfl, ?_, ?_⟩
    · simp [hb]
    · have := h.2
      simp only [hb, List.append_nil] at this
      simp [this]
  | seekFails => exact ⟨h.1, by rw [← h.2]; simp⟩
  | writeM =>
    obtain ⟨w, h1, h2, h3⟩ := h
    exact ⟨w, h1, by rw [← h2]; simp, h3⟩
  | flushM n => exact Over.flush h n
  | finish hb =>
    obtain ⟨w, h1, h2, h3⟩ := h
    simp only [hb, List.append_nil] at h2
    subst h2
    left
    rw [h3, header_length, ← placeholder_length, List.drop_left]
  | finishFails => trivial
  | writeE => exact ⟨h.1, by rw [← h.2]; simp⟩
  | flushE n => exact Seq.flush h n
  | finishE hb =>
    right
    have := h.2
    simpa [hb] using this
  | finishFailsE => trivial

theorem sInv {data : Bytes} {old : Option Bytes} {s : SaveState} (h : Saving data old s) :
    SInv data old s := by
  induction h with
  | start => rfl
  | step _ st ih => exact sInv_step ih st

theorem getBytes_short {bs : Bytes} (h : bs.length < 22) (hp : bs = (putBE 4 18 ++ bs.drop 4) ∨ bs.length < 4) :
    getBytes bs = none := by
  rcases hp with hp | hp
  · rw [hp, getBytes, getBE_putBE _ _ _ (by decide)]
    have : (bs.drop 4).length < 18 := by simp; omega
    simp only
    rw [if_neg (by decide)]
    simp only [takeN, if_neg (show ¬ 18 ≤ (bs.drop 4).length by omega), Option.map_none]
  · have : ¬ 4 ≤ bs.length := by omega
    simp only [getBytes, getBE, takeN, if_neg this, Option.map_none]

/-- A file which starts like the placeholder or the header but is not complete is rejected. -/
theorem reject_of {bs m tl : Bytes} (hm : m.length = 18)
    (hne : m ≠ magic) {k : Nat} (hbs : bs = (putBytes (some m) ++ tl).take k) :
    openFile (some bs) = .rejected := by
  have hlen : (putBytes (some m)).length = 22 := by simp [putBytes, putBE_length, hm]
  by_cases hk : k < 22
  · have hl : bs.length < 22 := by rw [hbs]; simp [hlen]; omega
    have : getBytes bs = none := by
      apply getBytes_short hl
      by_cases h4 : k < 4
      · right; rw [hbs]; simp [hlen]; omega
      · left
        rw [hbs]
        simp only [putBytes, hm]
        have e : (putBE 4 18 ++ m ++ tl).take k = putBE 4 18 ++ (m ++ tl).take (k - 4) := by
          rw [List.append_assoc, List.take_append]
          simp only [putBE_length]
          rw [List.take_of_length_le (by rw [putBE_length]; omega)]
        rw [e]
        have e2 : (putBE 4 18 ++ (m ++ tl).take (k - 4)).drop 4 = (m ++ tl).take (k - 4) := by
          rw [List.drop_append, putBE_length]
          simp [List.drop_of_length_le, putBE_length]
        rw [e2]
    simp only [openFile, this]
  · have : bs = putBytes (some m) ++ tl.take (k - 22) := by
      rw [hbs, List.take_append, hlen, List.take_of_length_le (by omega)]
    rw [this, openFile, getBytes_putBytes (by simp [BytesOk, hm])]
    simp [hne]

theorem take_magic_ne : ∀ k, k < 18 → magic.take k ++ List.replicate (18 - k) 0 ≠ magic := by
  decide +kernel

theorem header_take {w rest : Bytes} (h : w ++ rest = header) (hne : w ≠ header) (data : Bytes) :
    ∃ m, m.length = 18 ∧ m ≠ magic ∧ w ++ (placeholder ++ data).drop w.length = putBytes (some m) ++ data := by
  have hlen : w.length + rest.length = 22 := by rw [← header_length, ← h]; simp
  have hr : rest ≠ [] := by rintro rfl; simp at h; exact hne h
  have hrl : 0 < rest.length := List.length_pos_iff.2 hr
  have hw : w = header.take w.length := by rw [← h]; simp
  have key : ∀ n, n < 22 → ∃ m : Bytes, m.length = 18 ∧ m ≠ magic ∧
      header.take n ++ placeholder.drop n = putBytes (some m) := by
    intro n hn
    refine ⟨magic.take (n - 4) ++ List.replicate (18 - (n - 4)) 0, ?_, take_magic_ne _ (by omega), ?_⟩
    · simp [magic]; omega
    · revert n; decide +kernel
  obtain ⟨m, h1, h2, h3⟩ := key w.length (by omega)
  refine ⟨m, h1, h2, ?_⟩
  rw [← h3, ← hw, List.append_assoc, List.drop_append_of_le_length (by rw [placeholder_length]; omega)]

/-- C12.  Stop saving at any point, after any part of the data has been written, also if writing or
seeking failed before.  Then the file is the old one, or there is none, or loading rejects it, or it
is the complete new one. -/
theorem C12_partial_file_rejected (data : Bytes) (old : Option Bytes) (s : SaveState)
    (h : Saving data old s) :
    s = .before old ∨ s.disk = none ∨ openFile s.disk = .rejected ∨
      (s.disk = some (header ++ data) ∧ openFile s.disk = .accepted data) := by
  have hz : List.replicate 18 (0 : UInt8) ≠ magic := by decide
  have hc : openFile (some (header ++ data)) = .accepted data := by
    rw [openFile, header, getBytes_putBytes (by show 18 < 0xfffffffe; decide)]
    simp
  have hseq : ∀ {all f todo}, (∃ tl, all = placeholder ++ tl) → Seq all f todo →
      openFile (some f.disk) = .rejected := by
    rintro all f todo ⟨tl, rfl⟩ ⟨_, h2⟩
    refine reject_of (m := List.replicate 18 0) (tl := tl) (k := f.disk.length) rfl hz ?_
    show f.disk = (placeholder ++ tl).take f.disk.length
    rw [← h2]; simp
  have hi := sInv h
  cases s with
  | before o => left; rw [show o = old from hi]
  | removed => right; left; rfl
  | body f todo => exact Or.inr (Or.inr (Or.inl (hseq ⟨data, rfl⟩ hi)))
  | failed f => obtain ⟨todo, hi⟩ := hi; exact Or.inr (Or.inr (Or.inl (hseq ⟨data, rfl⟩ hi)))
  | magicAt0 f todo =>
    obtain ⟨w, h1, h2, h3⟩ := hi
    by_cases hw : w = header
    · right; right; right
      have : f.disk = header ++ data := by
        rw [h3, hw, header_length, ← placeholder_length, List.drop_left]
      simp only [SaveState.disk, this]
      exact ⟨trivial, hc⟩
    · right; right; left
      obtain ⟨m, m1, m2, m3⟩ := header_take (by rw [← List.append_assoc]; exact h2) hw data
      simp only [SaveState.disk, h3, m3]
      exact reject_of (tl := data) (k := (putBytes (some m) ++ data).length) m1 m2
        List.take_length.symm
  | magicAtEnd f todo => exact Or.inr (Or.inr (Or.inl (hseq ⟨data ++ header, by simp⟩ hi)))
  | done f =>
    rcases hi with hi | hi
    · right; right; right
      simp only [SaveState.disk, hi]
      exact ⟨trivial, hc⟩
    · right; right; left
      simp only [SaveState.disk, hi]
      refine reject_of (m := List.replicate 18 0) (tl := data ++ header)
        (k := (placeholder ++ data ++ header).length) rfl hz ?_
      show placeholder ++ data ++ header = (placeholder ++ (data ++ header)).take _
      rw [← List.append_assoc]
      exact List.take_length.symm
  | gone => right; left; rfl

/-- C12, the other half: if nothing fails, saving can be completed, and the file is then accepted. -/
theorem C12_saving_can_finish (data : Bytes) (old : Option Bytes) :
    ∃ f, Saving data old (.done f) ∧ openFile (some f.disk) = .accepted data := by
  have w1 : ∀ (todo : Bytes) (f : QF), Saving data old (.body f todo) →
      Saving data old (.body { f with buf := f.buf ++ todo } []) := by
    intro todo
    induction todo with
    | nil => intro f h; simpa using h
    | cons b todo ih =>
      intro f h
      have := ih _ (h.step .write)
      simpa using this
  have w2 : ∀ (todo : Bytes) (f : QF), Saving data old (.magicAt0 f todo) →
      Saving data old (.magicAt0 { f with buf := f.buf ++ todo } []) := by
    intro todo
    induction todo with
    | nil => intro f h; simpa using h
    | cons b todo ih =>
      intro f h
      have := ih _ (h.step .writeM)
      simpa using this
  have h1 := w1 _ _ ((Saving.start.step .remove).step .open)
  have h2 := h1.step (.flush (placeholder ++ data).length)
  have h3 := h2.step (.seek (by simp [QF.flush]))
  have h4 := w2 _ _ h3
  have h5 := h4.step (.flushM header.length)
  have h6 := h5.step (.finish (by simp [QF.flush]))
  refine ⟨_, h6, ?_⟩
  obtain ⟨w, _, e2, e3⟩ := sInv h5
  have hw : w = header := by simpa [QF.flush] using e2
  rw [hw, header_length, ← placeholder_length, List.drop_left] at e3
  refine (congrArg (fun d => openFile (some d)) e3).trans ?_
  simp only [openFile, header, getBytes_putBytes (show BytesOk (some magic) by
    show 18 < 0xfffffffe; decide), if_true]

/-- A crash in the middle: the header half written. -/
example : ∃ s, Saving [1, 2, 3] (some [9]) s ∧ s.disk = some (header.take 7 ++ placeholder.drop 7 ++ [1, 2, 3]) ∧
    openFile s.disk = .rejected := by
  have w1 : ∀ (todo : Bytes) (f : QF), Saving [1, 2, 3] (some [9]) (.body f todo) →
      Saving [1, 2, 3] (some [9]) (.body { f with buf := f.buf ++ todo } []) := by
    intro todo
    induction todo with
    | nil => intro f h; simpa using h
    | cons b todo ih =>
      intro f h
      have := ih _ (h.step .write)
      simpa using this
  have h1 := w1 _ _ ((Saving.start.step .remove).step .open)
  have h2 := (h1.step (.flush 10)).step (.flush 100)
  have h3 := h2.step (.seek rfl)
  have h4 := ((((((h3.step .writeM).step .writeM).step .writeM).step .writeM).step .writeM).step
    .writeM).step .writeM
  exact ⟨_, h4.step (.flushM 7), by decide, by decide⟩

end Verif.Persist
