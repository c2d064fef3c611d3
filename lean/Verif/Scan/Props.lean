import Verif.Scan.Model
import Verif.Common.Snoc
/-!
# C32: scan results are only reused for the same file, scanner and settings
-/
namespace Verif.Scan

/-! ## Specification -/

/-- Times increase, and a file that is written gets the current time. -/
def Timed : Nat → List (Nat × Ev) → Prop
  | _, [] => True
  | t, (t', e) :: h => t < t' ∧ (∀ p c m, e = .write p c m → m = t') ∧ Timed t' h

/-- An id belongs to one scanner. -/
def UniqueIds (scanners : List Scanner) : Prop :=
  ∀ s ∈ scanners, ∀ s' ∈ scanners, s.id = s'.id → s = s'

/-- The scanners used in a history. -/
def usedIn (h : List (Nat × Ev)) : List Scanner :=
  h.filterMap (fun e => match e.2 with
    | .scan r => some r.scanner
    | _ => none)

/-! ## Lemmas about one list -/

theorem find_cons (sc : Scanner) (props : Nat) (d : ScanData) (l : List ScanData) :
    find sc props (d :: l) = if sc.id ≠ d.id then find sc props l
      else if !compatible sc props d.props then find sc props l else some d := by
  conv => lhs; unfold find

theorem upsert_cons (sc : Scanner) (props : Nat) (f : ScanData → ScanData) (d : ScanData)
    (l : List ScanData) :
    upsert sc props f (d :: l) = if sc.id ≠ d.id then d :: upsert sc props f l
      else if !compatible sc props d.props then d :: upsert sc props f l else f d :: l := by
  conv => lhs; unfold upsert

theorem find_upsert_self (sc : Scanner) (props : Nat) (f : ScanData → ScanData)
    (hf : ∀ d, (f d).id = d.id ∧ (f d).props = d.props) (hc : compatible sc props props = true) :
    ∀ l, find sc props (upsert sc props f l) =
      some (f ((find sc props l).getD ⟨sc.id, props, 0, none⟩))
  | [] => by
    have := hf ⟨sc.id, props, 0, none⟩
    simp [upsert, find, this.1, this.2, hc]
  | d :: l => by
    rw [upsert_cons, find_cons sc props d l]
    by_cases h1 : sc.id ≠ d.id
    · rw [if_pos h1, if_pos h1, find_cons, if_pos h1]
      exact find_upsert_self sc props f hf hc l
    · rw [if_neg h1, if_neg h1]
      by_cases h2 : (!compatible sc props d.props) = true
      · rw [if_pos h2, if_pos h2, find_cons, if_neg h1, if_pos h2]
        exact find_upsert_self sc props f hf hc l
      · rw [if_neg h2, if_neg h2, find_cons, (hf d).1, (hf d).2, if_neg h1, if_neg h2]
        rfl

theorem mem_upsert {sc : Scanner} {props : Nat} {f : ScanData → ScanData} {x : ScanData} :
    ∀ {l}, x ∈ upsert sc props f l →
      x ∈ l ∨ x = f ⟨sc.id, props, 0, none⟩ ∨
      ∃ d ∈ l, d.id = sc.id ∧ compatible sc props d.props = true ∧ x = f d
  | [], h => by simp [upsert] at h; exact Or.inr (Or.inl h)
  | d :: l, h => by
    rw [upsert_cons] at h
    by_cases h1 : sc.id ≠ d.id
    · rw [if_pos h1] at h
      rcases List.mem_cons.mp h with h | h
      · exact Or.inl (by rw [h]; exact List.mem_cons_self)
      · rcases mem_upsert h with h | h | ⟨e, he, h'⟩
        · exact Or.inl (List.mem_cons_of_mem _ h)
        · exact Or.inr (Or.inl h)
        · exact Or.inr (Or.inr ⟨e, List.mem_cons_of_mem _ he, h'⟩)
    · rw [if_neg h1] at h
      by_cases h2 : (!compatible sc props d.props) = true
      · rw [if_pos h2] at h
        rcases List.mem_cons.mp h with h | h
        · exact Or.inl (by rw [h]; exact List.mem_cons_self)
        · rcases mem_upsert h with h | h | ⟨e, he, h'⟩
          · exact Or.inl (List.mem_cons_of_mem _ h)
          · exact Or.inr (Or.inl h)
          · exact Or.inr (Or.inr ⟨e, List.mem_cons_of_mem _ he, h'⟩)
      · rw [if_neg h2] at h
        rcases List.mem_cons.mp h with h | h
        · refine Or.inr (Or.inr ⟨d, List.mem_cons_self, ?_, by simpa using h2, h⟩)
          simp only [ne_eq, Classical.not_not] at h1
          exact h1.symm
        · exact Or.inl (List.mem_cons_of_mem _ h)

theorem find_some {sc : Scanner} {props : Nat} {d : ScanData} : ∀ {l}, find sc props l = some d →
    d ∈ l ∧ d.id = sc.id ∧ compatible sc props d.props = true
  | e :: l, h => by
    rw [find_cons] at h
    by_cases h1 : sc.id ≠ e.id
    · rw [if_pos h1] at h
      obtain ⟨a, b⟩ := find_some h
      exact ⟨List.mem_cons_of_mem _ a, b⟩
    · rw [if_neg h1] at h
      by_cases h2 : (!compatible sc props e.props) = true
      · rw [if_pos h2] at h
        obtain ⟨a, b⟩ := find_some h
        exact ⟨List.mem_cons_of_mem _ a, b⟩
      · rw [if_neg h2] at h
        cases h
        simp only [ne_eq, Classical.not_not] at h1
        exact ⟨List.mem_cons_self, h1.symm, by simpa using h2⟩

/-! ## The invariant -/

/-- Where the entries of the cache come from, `log` being the history so far and `t` its end. -/
structure Good (log : List (Nat × Ev)) (t : Nat) (path : String) (d : ScanData) : Prop where
  last : d.last ≤ t
  /-- it comes from a scan of this file with this scanner -/
  origin : ∀ i, d.result = some i → i.req.path = path ∧ i.req.scanner.id = d.id ∧
    i.time = d.last ∧ compatible i.req.scanner i.req.props d.props = true ∧
    (i.time, .scan i.req) ∈ log
  /-- no result without a scan -/
  fresh : d.result = none → d.last = 0

theorem good_rescan {log : List (Nat × Ev)} {t now : Nat} {fs : Files} {r : Request} {d : ScanData}
    (h : Good log t r.path d) (ht : t < now) (hid : d.id = r.scanner.id)
    (hc : compatible r.scanner r.props d.props = true) :
    Good (log ++ [(now, .scan r)]) now r.path (rescan fs r now d) := by
  unfold rescan
  split
  · refine ⟨Nat.le_refl _, ?_, fun hh => by cases hh⟩
    intro i hi
    cases hi
    exact ⟨rfl, hid.symm, rfl, hc, by simp⟩
  · refine ⟨Nat.le_trans h.last (Nat.le_of_lt ht), ?_, h.fresh⟩
    intro i hi
    obtain ⟨a, b, c, d, e⟩ := h.origin i hi
    exact ⟨a, b, c, d, List.mem_append_left _ e⟩

theorem compatible_refl (sc : Scanner) (p : Nat) : compatible sc p p = true := by
  simp [compatible]

theorem good_step {log : List (Nat × Ev)} {t : Nat} {s : State} {e : Nat × Ev}
    (h : ∀ path, ∀ d ∈ s.cache path, Good log t path d) (ht : t < e.1) :
    ∀ path, ∀ d ∈ (step s e).cache path, Good (log ++ [e]) e.1 path d := by
  have weaken : ∀ path d, Good log t path d → Good (log ++ [e]) e.1 path d := by
    intro path d hg
    refine ⟨Nat.le_trans hg.last (Nat.le_of_lt ht), ?_, hg.fresh⟩
    intro i hi
    obtain ⟨a, b, c, dd, ee⟩ := hg.origin i hi
    exact ⟨a, b, c, dd, List.mem_append_left _ ee⟩
  obtain ⟨now, ev⟩ := e
  simp only at ht
  cases ev with
  | scan r =>
    intro path d hd
    simp only [step, scan] at hd
    by_cases hp : path = r.path
    · rw [if_pos hp] at hd
      subst hp
      rcases mem_upsert hd with hd | hd | ⟨d0, hd0, hid, hcp, hd⟩
      · exact weaken _ d (h _ d hd)
      · rw [hd]
        refine good_rescan (log := log) (t := t) ⟨Nat.zero_le _, ?_, fun _ => rfl⟩ ht rfl
          (compatible_refl _ _)
        intro i hi; cases hi
      · rw [hd]
        exact good_rescan (h _ d0 hd0) ht hid hcp
    · rw [if_neg hp] at hd
      exact weaken _ d (h path d hd)
  | write p c m => intro path d hd; exact weaken _ d (h path d hd)
  | remove p => intro path d hd; exact weaken _ d (h path d hd)
  | invalidate id =>
    intro path d hd
    exact weaken _ d (h path d (List.mem_filter.mp hd).1)

theorem after_append (h : List (Nat × Ev)) (e : Nat × Ev) : after (h ++ [e]) = step (after h) e := by
  simp [after, List.foldl_append]

theorem timed_append {h : List (Nat × Ev)} {e : Nat × Ev} : ∀ {t}, Timed t (h ++ [e]) →
    Timed t h ∧ (∀ x ∈ h, x.1 < e.1) ∧ t < e.1 ∧ (∀ p c m, e.2 = .write p c m → m = e.1) := by
  induction h with
  | nil => intro t hh; exact ⟨trivial, (fun _ h => by cases h), hh.1, hh.2.1⟩
  | cons x h ih =>
    intro t hh
    obtain ⟨a, b, c⟩ := hh
    obtain ⟨i1, i2, i3, i4⟩ := ih c
    refine ⟨⟨a, b, i1⟩, ?_, Nat.lt_trans a i3, i4⟩
    intro y hy
    rcases List.mem_cons.mp hy with rfl | hy
    · exact i3
    · exact i2 y hy

/-- The end of a history. -/
def endTime (h : List (Nat × Ev)) : Nat := (h.getLast?).elim 0 (·.1)

theorem endTime_append (h : List (Nat × Ev)) (e : Nat × Ev) : endTime (h ++ [e]) = e.1 := by
  simp [endTime]

theorem endTime_lt {h : List (Nat × Ev)} {n : Nat} (hlt : ∀ x ∈ h, x.1 < n)
    (hn : 0 < n) : endTime h < n := by
  unfold endTime
  cases hl : h.getLast? with
  | none => exact hn
  | some x => exact hlt x (List.mem_of_mem_getLast? hl)

theorem good_after (h : List (Nat × Ev)) : Timed 0 h → ∀ path, ∀ d ∈ (after h).cache path,
    Good h (endTime h) path d := by
  induction h using Verif.snoc_induction with
  | nil =>
    intro _ path d hd
    cases hd
  | append_singleton h e ih =>
    intro ht
    obtain ⟨t1, t2, t3, t4⟩ := timed_append ht
    rw [after_append, endTime_append]
    exact good_step (ih t1) (endTime_lt t2 t3)

/-- Files have the time stamps of their last change. -/
theorem stamps (h : List (Nat × Ev)) : Timed 0 h → ∀ p c m, (after h).files p = some (c, m) →
    0 < m ∧ m ≤ endTime h := by
  induction h using Verif.snoc_induction with
  | nil =>
    intro _ p c m hf
    cases hf
  | append_singleton h e ih =>
    intro ht p c m hf
    obtain ⟨t1, t2, t3, t4⟩ := timed_append ht
    rw [after_append] at hf
    rw [endTime_append]
    have old : (after h).files p = some (c, m) → 0 < m ∧ m ≤ e.1 := fun hh =>
      ⟨(ih t1 p c m hh).1, Nat.le_trans (ih t1 p c m hh).2 (Nat.le_of_lt (endTime_lt t2 t3))⟩
    obtain ⟨now, ev⟩ := e
    cases ev with
    | scan r => exact old hf
    | invalidate id => exact old hf
    | write p' c' m' =>
      simp only [step] at hf
      by_cases hp : p = p'
      · rw [if_pos hp] at hf
        cases hf
        rw [t4 p' c m rfl]
        exact ⟨t3, Nat.le_refl _⟩
      · rw [if_neg hp] at hf
        exact old hf
    | remove p' =>
      simp only [step] at hf
      by_cases hp : p = p'
      · rw [if_pos hp] at hf; cases hf
      · rw [if_neg hp] at hf; exact old hf

/-- A scan that is not older than a file saw the file as it is. -/
theorem content_kept (h : List (Nat × Ev)) : Timed 0 h → ∀ path, ∀ d ∈ (after h).cache path,
    ∀ i, d.result = some i → ∀ c m, (after h).files path = some (c, m) → m ≤ d.last →
    i.files path = some (c, m) := by
  induction h using Verif.snoc_induction with
  | nil =>
    intro _ path d hd
    cases hd
  | append_singleton h e ih =>
    intro ht path d hd i hi c m hf hm
    obtain ⟨t1, t2, t3, t4⟩ := timed_append ht
    have hg := good_after h t1
    have hlt := endTime_lt t2 t3
    rw [after_append] at hd hf
    obtain ⟨now, ev⟩ := e
    cases ev with
    | scan r =>
      simp only [step, scan] at hd
      by_cases hp : path = r.path
      · rw [if_pos hp] at hd
        have resc : ∀ d0, (∀ i, d0.result = some i → ∀ c m, (after h).files path = some (c, m) →
            m ≤ d0.last → i.files path = some (c, m)) →
            d = rescan (after h).files r now d0 → i.files path = some (c, m) := by
          intro d0 h0 he
          unfold rescan at he
          split at he
          · rw [he] at hi
            cases hi
            exact hf
          · rw [he] at hi hm
            exact h0 i hi c m hf hm
        rcases mem_upsert hd with hd | hd | ⟨d0, hd0, _, _, hd⟩
        · exact ih t1 path d hd i hi c m hf hm
        · exact resc _ (fun i hi => by cases hi) hd
        · exact resc d0 (ih t1 path d0 hd0) hd
      · rw [if_neg hp] at hd
        exact ih t1 path d hd i hi c m hf hm
    | invalidate id => exact ih t1 path d (List.mem_filter.mp hd).1 i hi c m hf hm
    | write p' c' m' =>
      simp only [step] at hf hd
      by_cases hp : path = p'
      · rw [if_pos hp] at hf
        cases hf
        have h1 := (hg path d hd).last
        have h2 : m = now := t4 p' c m rfl
        simp only at hlt
        omega
      · rw [if_neg hp] at hf
        exact ih t1 path d hd i hi c m hf hm
    | remove p' =>
      simp only [step] at hf hd
      by_cases hp : path = p'
      · rw [if_pos hp] at hf; cases hf
      · rw [if_neg hp] at hf
        exact ih t1 path d hd i hi c m hf hm

/-! ## The theorems -/

theorem rescan_keeps (fs : Files) (r : Request) (now : Nat) (d : ScanData) :
    (rescan fs r now d).id = d.id ∧ (rescan fs r now d).props = d.props := by
  unfold rescan; split <;> exact ⟨rfl, rfl⟩

theorem answer_eq (h : List (Nat × Ev)) (now : Nat) (r : Request) :
    answer h now r = (rescan (after h).files r now
      ((existing (after h).cache r).getD ⟨r.scanner.id, r.props, 0, none⟩)).result := by
  unfold answer
  rw [after_append]
  show ((find r.scanner r.props _).bind _) = _
  simp only [step, scan, if_pos]
  rw [find_upsert_self _ _ _ (rescan_keeps _ r now) (compatible_refl _ _)]
  rfl

/-- **C32.** In any history, what is returned for a file, a scanner and properties is the result of
a scan in that history, of this file, by a scanner with this id, for properties both compatible
with those the entry was made for; and the file was then as it is now. If there is no such file,
nothing is claimed about its content. -/
theorem C32_matching_and_current (h : List (Nat × Ev)) (now : Nat) (r : Request)
    (ht : Timed 0 (h ++ [(now, .scan r)])) (i : Inputs) (hi : answer h now r = some i) :
    (i.time, Ev.scan i.req) ∈ h ++ [(now, .scan r)] ∧
    i.req.path = r.path ∧ i.req.scanner.id = r.scanner.id ∧
    (∃ q, compatible i.req.scanner i.req.props q = true ∧ compatible r.scanner r.props q = true) ∧
    (∀ c m, (after h).files r.path = some (c, m) → i.files r.path = some (c, m)) := by
  have hfull := good_after _ ht r.path
  have hcont := content_kept _ ht r.path
  unfold answer at hi
  cases he : existing (after (h ++ [(now, .scan r)])).cache r with
  | none => rw [he] at hi; cases hi
  | some d =>
    rw [he] at hi
    obtain ⟨hm, hid, hcp⟩ := find_some he
    obtain ⟨o1, o2, o3, o4, o5⟩ := (hfull d hm).origin i hi
    refine ⟨o5, o1, o2.trans hid, ⟨d.props, o4, hcp⟩, ?_⟩
    intro c m hf
    have hf' : (after (h ++ [(now, .scan r)])).files r.path = some (c, m) := by
      rw [after_append]; exact hf
    refine hcont d hm i hi c m hf' ?_
    -- the entry is not older than the file: otherwise it would have been scanned again
    have hex : existing (after (h ++ [(now, .scan r)])).cache r = some (rescan (after h).files r now
        ((existing (after h).cache r).getD ⟨r.scanner.id, r.props, 0, none⟩)) := by
      rw [after_append]
      show find r.scanner r.props _ = _
      simp only [step, scan, if_pos]
      exact find_upsert_self _ _ _ (rescan_keeps _ r now) (compatible_refl _ _) _
    rw [he] at hex
    cases hex
    obtain ⟨t1, t2, t3, t4⟩ := timed_append ht
    have hst := (stamps h t1 r.path c m hf).2
    have hlt := endTime_lt t2 t3
    simp only at hlt
    unfold rescan
    split
    · simp only; omega
    · rename_i hn
      simp only [timestamp, hf, Option.elim_some] at hn
      omega

/-- **C32.** With unique ids, a scanner that is not a plugin gets results that were made by itself for
equal properties. -/
theorem C32_same_scanner_same_properties (h : List (Nat × Ev)) (now : Nat) (r : Request)
    (ht : Timed 0 (h ++ [(now, .scan r)])) (hu : UniqueIds (usedIn (h ++ [(now, .scan r)])))
    (i : Inputs) (hi : answer h now r = some i) :
    i.req.scanner = r.scanner ∧ (r.scanner.plugin = false → i.req.props = r.props) := by
  obtain ⟨h1, _, h3, ⟨q, h4, h5⟩, _⟩ := C32_matching_and_current h now r ht i hi
  have hs : i.req.scanner = r.scanner := by
    refine hu _ ?_ _ ?_ h3
    · exact List.mem_filterMap.mpr ⟨_, h1, rfl⟩
    · exact List.mem_filterMap.mpr ⟨(now, .scan r), by simp, rfl⟩
  refine ⟨hs, fun hp => ?_⟩
  rw [hs] at h4
  simp only [compatible, hp, Bool.false_or, beq_iff_eq] at h4 h5
  rw [h4, h5]

/-- **C32.** A file that exists is scanned: there is a result. -/
theorem C32_result_for_existing_file (h : List (Nat × Ev)) (now : Nat) (r : Request)
    (ht : Timed 0 (h ++ [(now, .scan r)])) (c : String) (m : Nat)
    (hf : (after h).files r.path = some (c, m)) : ∃ i, answer h now r = some i := by
  obtain ⟨t1, t2, t3, t4⟩ := timed_append ht
  rw [answer_eq]
  have hst := (stamps h t1 r.path c m hf).1
  unfold rescan
  split
  · exact ⟨_, rfl⟩
  · rename_i hn
    simp only [timestamp, hf, Option.elim_some] at hn
    cases he : existing (after h).cache r with
    | none => rw [he] at hn; simp only [Option.getD_none] at hn; omega
    | some d =>
      rw [he] at hn
      simp only [Option.getD_some] at hn ⊢
      cases hr : d.result with
      | none =>
        have := (good_after h t1 r.path d (find_some he).1).fresh hr
        omega
      | some i => exact ⟨i, rfl⟩

/-- No scan of this id before `t` is in the cache. -/
theorem after_invalidate (id : String) (t : Nat) (h1 h2 : List (Nat × Ev)) :
    Timed 0 (h1 ++ [(t, .invalidate id)] ++ h2) → ∀ path,
    ∀ d ∈ (after (h1 ++ [(t, .invalidate id)] ++ h2)).cache path, d.id = id → ∀ i, d.result = some i →
    t < i.time := by
  induction h2 using Verif.snoc_induction with
  | nil =>
    intro ht path d hd hid
    rw [List.append_nil, after_append] at hd
    have := (List.mem_filter.mp hd).2
    simp [hid] at this
  | append_singleton h2 e ih =>
    intro ht path d hd hid i hi
    rw [← List.append_assoc] at ht hd
    obtain ⟨t1, t2, t3, t4⟩ := timed_append ht
    have htn : t < e.1 := t2 (t, .invalidate id) (by simp)
    rw [after_append] at hd
    obtain ⟨now, ev⟩ := e
    cases ev with
    | scan r =>
      simp only [step, scan] at hd
      by_cases hp : path = r.path
      · rw [if_pos hp] at hd
        have resc : ∀ d0, d0.id = d.id → (d0.id = id → ∀ i, d0.result = some i → t < i.time) →
            d = rescan (after (h1 ++ [(t, .invalidate id)] ++ h2)).files r now d0 → t < i.time := by
          intro d0 hid0 h0 he
          unfold rescan at he
          split at he
          · rw [he] at hi
            cases hi
            exact htn
          · rw [he] at hi
            exact h0 (hid0.trans hid) i hi
        rcases mem_upsert hd with hd | hd | ⟨d0, hd0, _, _, hd⟩
        · exact ih t1 path d hd hid i hi
        · exact resc _ (by rw [hd]; exact (rescan_keeps _ r now _).1.symm) (fun _ i hi => by cases hi) hd
        · exact resc d0 (by rw [hd]; exact (rescan_keeps _ r now _).1.symm) (ih t1 path d0 hd0) hd
      · rw [if_neg hp] at hd
        exact ih t1 path d hd hid i hi
    | invalidate id' => exact ih t1 path d (List.mem_filter.mp hd).1 hid i hi
    | write p c m => exact ih t1 path d hd hid i hi
    | remove p => exact ih t1 path d hd hid i hi

/-- **C32.** After the invalidation of a scanner's results none of the earlier ones is returned. -/
theorem C32_invalidated (h1 h2 : List (Nat × Ev)) (t now : Nat) (r : Request)
    (ht : Timed 0 (h1 ++ [(t, .invalidate r.scanner.id)] ++ (h2 ++ [(now, .scan r)]))) (i : Inputs)
    (hi : answer (h1 ++ [(t, .invalidate r.scanner.id)] ++ h2) now r = some i) : t < i.time := by
  unfold answer at hi
  rw [List.append_assoc _ h2] at hi
  cases he : existing (after (h1 ++ [(t, .invalidate r.scanner.id)] ++ (h2 ++ [(now, .scan r)]))).cache
      r with
  | none => rw [he] at hi; cases hi
  | some d =>
    rw [he] at hi
    obtain ⟨hm, hid, _⟩ := find_some he
    exact after_invalidate r.scanner.id t h1 _ ht r.path d hm hid i hi

theorem find_filter (id : String) (sc : Scanner) (props : Nat) (hne : sc.id ≠ id) : ∀ l,
    find sc props (l.filter (·.id != id)) = find sc props l
  | [] => rfl
  | d :: l => by
    by_cases hd : d.id = id
    · have h1 : sc.id ≠ d.id := by rw [hd]; exact hne
      have hf : (d :: l).filter (·.id != id) = l.filter (·.id != id) := by simp [hd]
      rw [hf, find_filter id sc props hne l]
      rw [find_cons, if_pos h1]
    · have hf : (d :: l).filter (·.id != id) = d :: l.filter (·.id != id) := by simp [hd]
      rw [hf]
      rw [find_cons, find_cons, find_filter id sc props hne l]

theorem find_upsert_other (sc sc' : Scanner) (props props' : Nat) (f : ScanData → ScanData)
    (hf : ∀ d, (f d).id = d.id ∧ (f d).props = d.props) (hne : sc.id ≠ sc'.id) : ∀ l,
    find sc props (upsert sc' props' f l) = find sc props l
  | [] => by
    simp [upsert, find, (hf ⟨sc'.id, props', 0, none⟩).1, hne]
  | d :: l => by
    rw [upsert_cons]
    by_cases h1 : sc'.id ≠ d.id
    · rw [if_pos h1]; rw [find_cons, find_cons, find_upsert_other sc sc' props props' f hf hne l]
    · rw [if_neg h1]
      by_cases h2 : (!compatible sc' props' d.props) = true
      · rw [if_pos h2]; rw [find_cons, find_cons, find_upsert_other sc sc' props props' f hf hne l]
      · rw [if_neg h2]
        simp only [ne_eq, Classical.not_not] at h1
        have : sc.id ≠ d.id := by rw [← h1]; exact hne
        rw [find_cons, find_cons, (hf d).1, if_pos this, if_pos this]

/-- **C32.** Scans of other files or by other scanners, and the invalidation of other scanners, do
not touch the results of a request. -/
theorem C32_no_interference (s : State) (now : Nat) (r : Request) :
    (∀ r', r'.path ≠ r.path ∨ r'.scanner.id ≠ r.scanner.id →
      existing (step s (now, .scan r')).cache r = existing s.cache r) ∧
    (∀ id, id ≠ r.scanner.id → existing (step s (now, .invalidate id)).cache r = existing s.cache r) := by
  refine ⟨?_, ?_⟩
  · intro r' h
    unfold existing
    simp only [step, scan]
    by_cases hp : r.path = r'.path
    · rw [if_pos hp]
      rcases h with h | h
      · exact absurd hp.symm h
      · exact find_upsert_other _ _ _ _ _ (rescan_keeps _ r' now) (Ne.symm h) _
    · rw [if_neg hp]
  · intro id h
    exact find_filter id _ _ (Ne.symm h) _

/-! ## Cases -/

def js : Scanner := ⟨"ids.js", false, 7⟩
def cppScanner : Scanner := ⟨"cpp.cpp", true, 0⟩
def req (sc : Scanner) (product : String) (props : Nat) (path : String) : Request :=
  ⟨sc, product, ["cpp"], props, path⟩

/-- A history: a file is written, scanned for two sets of properties, changed, scanned, scanned again
and invalidated. -/
def hist : List (Nat × Ev) :=
  [(1, .write "/a.x" "one" 1), (2, .scan (req js "p" 1 "/a.x")), (3, .scan (req js "p" 2 "/a.x")),
   (4, .write "/a.x" "two" 4), (5, .scan (req js "q" 1 "/a.x")), (6, .scan (req js "p" 1 "/a.x"))]

example : Timed 0 (hist ++ [(7, .scan (req js "p" 2 "/a.x"))]) ∧
    UniqueIds (usedIn (hist ++ [(7, .scan (req js "p" 2 "/a.x"))])) := by
  constructor
  · simp [Timed, hist]
  · unfold UniqueIds; decide

example : (answer hist 7 (req js "p" 1 "/a.x")).map (·.time) = some 5 ∧
    (answer hist 7 (req js "p" 2 "/a.x")).map (·.time) = some 7 := by decide

example : Timed 0 (hist ++ [(7, .invalidate "ids.js")] ++ ([] ++ [(8, .scan (req js "p" 1 "/a.x"))])) ∧
    (answer (hist ++ [(7, .invalidate "ids.js")] ++ []) 8 (req js "p" 1 "/a.x")).map (·.time) =
      some 8 := by
  constructor
  · simp [Timed, hist]
  · decide

/-! ## What is not guaranteed -/

def parse : String → List String → CppFile
  | "import m;", _ => ⟨[], [], ["m"]⟩
  | "#include \"x.h\"", _ => ⟨["x.h"], [], []⟩
  | _, _ => ⟨[], [], []⟩

/-- **C32 finding.** A C++ source is scanned for two products that are built by different compilers.
The second one gets the file name of the compiled module the first compiler would write: plugins'
results are taken to be independent of properties (depscanner.cpp 143-153), but that of the C++
scanner depends on `cpp.compiledModuleSuffix` (cppscannerplugin.cpp 80, 107). -/
theorem C32_module_suffix_of_other_product :
    let suffix : Nat → String := fun p => if p = 1 then ".gcm" else ".pcm"
    let h := [(1, Ev.write "/main.cpp" "import m;" 1), (2, .scan (req cppScanner "gcc" 1 "/main.cpp"))]
    let r := req cppScanner "clang" 2 "/main.cpp"
    Timed 0 (h ++ [(3, .scan r)]) ∧
    (answer h 3 r).map (cppScan parse (fun _ => "") suffix) = some ["m.gcm"] ∧
    cppScan parse (fun _ => "") suffix ⟨r, (after h).files, 3⟩ = ["m.pcm"] := by
  refine ⟨by simp [Timed], by decide, by decide⟩

/-- **C32 finding.** A header is added next to a source that includes it with quotes; up to now
another header of that name was found by the search paths. The source is not scanned again, so the
file that the compiler will use is not found by its dependencies
(cppscannerplugin.cpp 90-94: existence of files is a part of the result). -/
theorem C32_local_header_added :
    let h := [(1, Ev.write "/inc/x.h" "" 1), (2, .write "/src/a.cpp" "#include \"x.h\"" 2),
      (3, .scan (req cppScanner "p" 1 "/src/a.cpp")), (4, .write "/src/x.h" "" 4)]
    let r := req cppScanner "p" 1 "/src/a.cpp"
    Timed 0 (h ++ [(5, .scan r)]) ∧
    (answer h 5 r).map (cppScan parse (fun _ => "/src") (fun _ => "")) = some ["x.h"] ∧
    cppScan parse (fun _ => "/src") (fun _ => "") ⟨r, (after h).files, 5⟩ = ["/src/x.h"] := by
  refine ⟨by simp [Timed], by decide, by decide⟩

/-- **C32 finding.** Two products have scanners of their own with the same explicit `scannerId`
(checked for duplicates within one product only, productresolver.cpp 1199-1208) and different scan
scripts. The second one gets the results of the first one's script. -/
theorem C32_scanner_id_of_other_product :
    let s1 : Scanner := ⟨"my", false, 1⟩
    let s2 : Scanner := ⟨"my", false, 2⟩
    let h := [(1, Ev.write "/a.x" "" 1), (2, .scan (req s1 "p" 1 "/a.x"))]
    let r := req s2 "q" 1 "/a.x"
    Timed 0 (h ++ [(3, .scan r)]) ∧ (answer h 3 r).map (·.req.scanner.code) = some 1 := by
  refine ⟨by simp [Timed], by decide⟩

/-- **C32 finding.** The result of a scan script that uses its product is used for another product
with the same properties. -/
theorem C32_result_of_other_product :
    let h := [(1, Ev.write "/a.x" "" 1), (2, .scan (req js "p" 1 "/a.x"))]
    let r := req js "q" 1 "/a.x"
    Timed 0 (h ++ [(3, .scan r)]) ∧ UniqueIds (usedIn (h ++ [(3, .scan r)])) ∧
    (answer h 3 r).map (·.req.product) = some "p" := by
  refine ⟨by simp [Timed], by unfold UniqueIds; decide, by decide⟩

/-- **C32 finding.** A file that is replaced by another one with an older time stamp is not scanned
again: the condition on times in `Timed` is needed. -/
theorem C32_older_file_not_scanned :
    let h := [(1, Ev.write "/b.x" "old" 1), (2, .write "/a.x" "new" 2),
      (3, .scan (req js "p" 1 "/a.x")), (4, .write "/a.x" "old" 1)]
    (answer h 5 (req js "p" 1 "/a.x")).bind (fun i => i.files "/a.x") = some ("new", 2) ∧
    (after h).files "/a.x" = some ("old", 1) := by
  refine ⟨by decide, by decide⟩

end Verif.Scan
