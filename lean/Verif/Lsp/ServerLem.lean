import Verif.Lsp.ServerSpec

namespace Verif.Lsp

theorem findNl_append (b t : List Char) (h : '\n' ∉ b) : findNl (b ++ '\n' :: t) = some b.length := by
  induction b with
  | nil => simp [findNl]
  | cons c cs ih =>
    simp only [List.mem_cons, not_or] at h
    simp [findNl, Ne.symm h.1, ih h.2]

theorem nlLoop_line (k base off : Nat) (b t : List Char) (h : '\n' ∉ b) :
    nlLoop (k + 1) base (b ++ '\n' :: t) off = nlLoop k (base + b.length + 1) t (base + b.length) := by
  rw [nlLoop, findNl_append b t h]
  simp only
  congr 1
  rw [show b ++ '\n' :: t = (b ++ ['\n']) ++ t by simp]
  exact List.drop_left' (by simp)

/-- A text with a line break is its first line and the rest. -/
theorem firstLine (s : List Char) (h : '\n' ∈ s) : ∃ b t, s = b ++ '\n' :: t ∧ '\n' ∉ b := by
  induction s with
  | nil => cases h
  | cons c cs ih =>
    by_cases hc : c = '\n'
    · exact ⟨[], cs, by rw [hc]; rfl, by simp⟩
    · have : '\n' ∈ cs := by
        simp only [List.mem_cons] at h
        rcases h with h | h
        · exact absurd h.symm hc
        · exact h
      obtain ⟨b, t, rfl, hb⟩ := ih this
      refine ⟨c :: b, t, rfl, ?_⟩
      simp only [List.mem_cons, not_or]
      exact ⟨fun e => hc e.symm, hb⟩

/-- The number of characters behind the last line break. -/
def lastLen (s : List Char) : Nat := (s.reverse.takeWhile (· != '\n')).length

theorem lastLen_none (s : List Char) (h : '\n' ∉ s) : lastLen s = s.length := by
  unfold lastLen
  have : ∀ l : List Char, '\n' ∉ l → l.takeWhile (· != '\n') = l := by
    intro l
    induction l with
    | nil => intro; rfl
    | cons c cs ih =>
      intro hc
      simp only [List.mem_cons, not_or] at hc
      have e : (c != '\n') = true := by simpa using Ne.symm hc.1
      simp only [List.takeWhile, e, ih hc.2]
  rw [this _ (by simpa using h), List.length_reverse]

theorem takeWhile_append_stop (a b : List Char) :
    (a ++ '\n' :: b).takeWhile (· != '\n') = a.takeWhile (· != '\n') := by
  induction a with
  | nil => simp [List.takeWhile]
  | cons c cs ih =>
    simp only [List.cons_append, List.takeWhile]
    split
    · rw [ih]
    · rfl

theorem lastLen_cons (b t : List Char) : lastLen (b ++ '\n' :: t) = lastLen t := by
  unfold lastLen
  rw [List.reverse_append, List.reverse_cons, List.append_assoc, List.singleton_append,
    takeWhile_append_stop]

theorem nlLoop_pre (n : Nat) : ∀ (pre : List Char), pre.length ≤ n → '\n' ∈ pre → ∀ (rest : List Char)
    (base off : Nat), ∃ o, nlLoop (pre.count '\n') base (pre ++ rest) off = some o ∧
      o + lastLen pre + 1 = base + pre.length := by
  induction n with
  | zero =>
    intro pre hl hm
    have : pre = [] := List.eq_nil_of_length_eq_zero (by omega)
    rw [this] at hm; cases hm
  | succ n ih =>
    intro pre hl hm rest base off
    obtain ⟨b, t, rfl, hb⟩ := firstLine pre hm
    have hc : (b ++ '\n' :: t).count '\n' = t.count '\n' + 1 := by
      rw [List.count_append, List.count_eq_zero_of_not_mem hb, List.count_cons_self]; omega
    rw [hc, List.append_assoc, List.cons_append, nlLoop_line _ _ _ _ _ hb, lastLen_cons]
    by_cases ht : '\n' ∈ t
    · obtain ⟨o, h1, h2⟩ := ih t (by simp at hl; omega) ht rest (base + b.length + 1) (base + b.length)
      refine ⟨o, h1, ?_⟩
      rw [h2]; simp; omega
    · rw [List.count_eq_zero_of_not_mem ht, lastLen_none t ht]
      refine ⟨base + b.length, rfl, ?_⟩
      simp; omega

theorem posToOffset_pre (pre rest : List Char) (h : '\n' ∈ pre) :
    posToOffset (posOf pre) (pre ++ rest) = pre.length := by
  unfold posToOffset codePosToOffset
  have e : ((posOf pre).line + 1 - 1).toNat = pre.count '\n' := by simp [posOf]
  rw [e]
  obtain ⟨o, h1, h2⟩ := nlLoop_pre pre.length pre (Nat.le_refl _) h rest 0 0
  rw [h1]
  have : (posOf pre).character = lastLen pre := rfl
  rw [this]
  simp only
  omega

theorem posToOffset_first (pre rest : List Char) (h : '\n' ∉ pre) :
    posToOffset (posOf pre) (pre ++ rest) = pre.length + 1 := by
  unfold posToOffset codePosToOffset
  have e : ((posOf pre).line + 1 - 1).toNat = 0 := by
    simp [posOf, List.count_eq_zero_of_not_mem h]
  rw [e]
  have : (posOf pre).character = lastLen pre := rfl
  rw [this, lastLen_none pre h]
  simp [nlLoop]

theorem replaceAt_mid (pre mid post new : List Char) :
    replaceAt (pre ++ mid ++ post) pre.length (((pre ++ mid).length : Int) - pre.length) new
      = pre ++ new ++ post := by
  unfold replaceAt
  rw [if_neg]
  · have e1 : (pre.length : Int).toNat = pre.length := by simp
    have e2 : (((pre ++ mid).length : Int) - pre.length).toNat = mid.length := by simp; omega
    rw [e1, e2, List.append_assoc pre mid post, List.take_left]
    congr 1
    rw [← List.drop_drop, List.drop_left, List.drop_left]
  · simp only [List.length_append]
    omega

/-- One edit behind the first line. -/
theorem applyChanges_part (pre mid post new : List Char) (cs : List Change) (h : '\n' ∈ pre) :
    applyChanges (pre ++ mid ++ post) ((Edit.part pre mid post new).change :: cs)
      = applyChanges (pre ++ new ++ post) cs := by
  have h1 : posToOffset (posOf pre) (pre ++ mid ++ post) = pre.length := by
    rw [List.append_assoc]; exact posToOffset_pre pre _ h
  have h2 : posToOffset (posOf (pre ++ mid)) (pre ++ mid ++ post) = (pre ++ mid).length :=
    posToOffset_pre (pre ++ mid) post (by simp [h])
  rw [applyChanges]
  simp only [Edit.change, h1, h2]
  rw [if_neg, replaceAt_mid]
  simp only [List.length_append]
  omega

theorem applyChanges_edits {t : List Char} {es : List Edit} {u : List Char} (h : Edits t es u)
    (hn : ∀ e ∈ es, e.NotInFirstLine) : applyChanges t (es.map Edit.change) = (u, false) := by
  induction h with
  | nil t => rfl
  | whole _ ih =>
    simp only [List.map_cons, Edit.change, applyChanges]
    exact ih (fun e he => hn e (by simp [he]))
  | @part pre mid post new es u _ ih =>
    rw [List.map_cons, applyChanges_part _ _ _ _ _
      (hn (.part pre mid post new) (List.mem_cons_self ..))]
    exact ih (fun e he => hn e (by simp [he]))

variable {P : Type} [DecidableEq P]

/-- The server takes part in the work on documents. -/
def Active (s : Srv P) : Prop := s.state ≠ .none ∧ s.state ≠ .shutdown ∧ s.open' = true

theorem handle_doc (s : Srv P) (ha : Active s) (id : Option Nat) (r : Req P)
    (c' : P → Option Document) (h : ClientStep s.docs r c') :
    handle s id r = ({ s with docs := c' }, []) := by
  obtain ⟨h1, h2, _⟩ := ha
  cases h with
  | opened hc =>
    simp only [handle, if_neg h2, if_neg h1, didOpen]
    rfl
  | changed hc he hn =>
    simp only [handle, if_neg h2, if_neg h1, didChange, hc, applyChanges_edits he hn]
    rfl
  | saved hc =>
    simp only [handle, if_neg h2, if_neg h1, didSave, hc]
    rfl
  | closed hc =>
    simp only [handle, if_neg h2, if_neg h1, didClose, hc]
    rfl

theorem handleAll_doc {c c' : P → Option Document} {rs : List (Req P)} (h : ClientRun c rs c') :
    ∀ (s : Srv P), Active s → s.docs = c → ∀ ids : List (Option Nat), ids.length = rs.length →
      handleAll s (ids.zip rs) = ({ s with docs := c' }, []) := by
  induction h with
  | nil c =>
    intro s _ hc ids _
    subst hc
    simp [handleAll]
  | @cons c c1 c2 r rs hs hr ih =>
    intro s ha hc ids hl
    subst hc
    cases ids with
    | nil => simp at hl
    | cons i ids =>
      have hh := handle_doc s ha i r c1 hs
      rw [List.zip_cons_cons, handleAll, if_pos ha.2.2, hh]
      have := ih { s with docs := c1 } ha rfl ids (by simpa using hl)
      simp only [this]
      rfl

theorem left_nat (s : List Char) (n : Nat) : left s n = s.take n := by
  unfold left
  rw [if_neg (by omega)]
  simp

/-- The texts before the position, if it is `n` characters behind the beginning. -/
theorem upToDate_iff (d : Document) (p : Pos) (n : Nat) (h : posToOffset p d.saved = n) :
    d.isPositionUpToDate p = true ↔ n ≤ d.current.length ∧ d.current.take n = d.saved.take n := by
  unfold Document.isPositionUpToDate
  rw [h]
  simp only [left_nat]
  by_cases hl : (d.current.length : Int) < n
  · rw [if_pos hl]
    simp only [Bool.false_eq_true, false_iff, not_and]
    intro h'; omega
  · rw [if_neg hl, decide_eq_true_iff]
    constructor
    · intro h'; exact ⟨by omega, h'⟩
    · exact fun h' => h'.2

theorem handle_response (s : Srv P) (id : Option Nat) (r : Req P) (h : r.isRequest = true) :
    ∃ o, (handle s id r).2 = [o] ∧ (o = .result id ∨ ∃ c, o = .error id c) := by
  cases r <;> simp only [Req.isRequest, Bool.false_eq_true] at h <;> simp only [handle, doInitialize] <;>
    (repeat' split) <;> first | exact ⟨_, rfl, Or.inl rfl⟩ | exact ⟨_, rfl, Or.inr ⟨_, rfl⟩⟩

theorem didOpen_id (s : Srv P) (p) : ∀ o ∈ (didOpen s p).2, o.id = none := by
  unfold didOpen
  split <;> simp [Out.id]

theorem didChange_id (s : Srv P) (p) : ∀ o ∈ (didChange s none p).2, o.id = none := by
  unfold didChange
  repeat' split
  all_goals first | (simp [Out.id]; done) | (simp only []; split <;> simp [Out.id])

theorem didSave_id (s : Srv P) (p) : ∀ o ∈ (didSave s p).2, o.id = none := by
  unfold didSave
  split <;> simp [Out.id]

theorem didClose_id (s : Srv P) (p) : ∀ o ∈ (didClose s p).2, o.id = none := by
  unfold didClose
  split <;> simp [Out.id]

theorem handle_none (s : Srv P) (r : Req P) (h : r.isRequest = false) :
    ∀ o ∈ (handle s none r).2, o.id = none := by
  cases r <;> simp only [Req.isRequest, Bool.true_eq_false] at h <;> simp only [handle] <;>
    (try simp only [doInitialized]) <;> (repeat' split) <;>
    first
    | exact didOpen_id _ _
    | exact didChange_id _ _
    | exact didSave_id _ _
    | exact didClose_id _ _
    | simp [Out.id]

theorem handle_open (s : Srv P) (id : Option Nat) (r : Req P) (h : r.isExit = false) :
    (handle s id r).1.open' = s.open' := by
  cases r <;> simp only [Req.isExit, Bool.true_eq_false] at h <;> simp only [handle] <;>
    (try simp only [doInitialize, doInitialized, didOpen, didChange, didSave, didClose]) <;>
    (repeat' split) <;> rfl

theorem handle_shutdown (s : Srv P) (id : Option Nat) (r : Req P) (h : r.isExit = false) :
    (handle s id r).1.state = .shutdown ↔ s.state = .shutdown ∨ r.isShutdown = true := by
  cases r <;> simp only [Req.isExit, Bool.true_eq_false] at h <;> simp only [handle] <;>
    (try simp only [doInitialize, doInitialized, didOpen, didChange, didSave, didClose]) <;>
    (repeat' split) <;> simp_all [Req.isShutdown]

theorem handle_fresh (s : Srv P) (id : Option Nat) (r : Req P) (h : r.isExit = false) :
    (handle s id r).1.state = .none ↔
      s.state = .none ∧ r.isShutdown = false ∧ r.isInitialize = false := by
  cases r <;> simp only [Req.isExit, Bool.true_eq_false] at h <;> simp only [handle] <;>
    (try simp only [doInitialize, doInitialized, didOpen, didChange, didSave, didClose]) <;>
    (repeat' split) <;> simp_all [Req.isShutdown, Req.isInitialize]

theorem handleAll_state (ms : List (Option Nat × Req P)) : ∀ (s : Srv P), s.open' = true →
    (∀ m ∈ ms, m.2.isExit = false) →
    (handleAll s ms).1.open' = true ∧
    ((handleAll s ms).1.state = .shutdown ↔ s.state = .shutdown ∨ ∃ m ∈ ms, m.2.isShutdown = true) ∧
    ((handleAll s ms).1.state = .none ↔ s.state = .none ∧
      ∀ m ∈ ms, m.2.isShutdown = false ∧ m.2.isInitialize = false) := by
  induction ms with
  | nil => intro s ho _; simp [handleAll, ho]
  | cons m ms ih =>
    intro s ho he
    obtain ⟨id, r⟩ := m
    have hr := he (id, r) (by simp)
    rw [handleAll, if_pos ho]
    obtain ⟨i1, i2, i3⟩ := ih (handle s id r).1 (by rw [handle_open s id r hr, ho])
      (fun m hm => he m (by simp [hm]))
    refine ⟨i1, ?_, ?_⟩
    · simp only [i2, handle_shutdown s id r hr, List.mem_cons, exists_eq_or_imp, or_assoc]
    · simp only [i3, handle_fresh s id r hr, List.mem_cons, forall_eq_or_imp, and_assoc]

/-- After any history without `exit`, the server is at work or not. -/
theorem running_iff (ms : List (Option Nat × Req P)) (he : ∀ m ∈ ms, m.2.isExit = false) :
    Running ms ↔ (handleAll ({} : Srv P) ms).1.state ≠ .none ∧
      (handleAll ({} : Srv P) ms).1.state ≠ .shutdown := by
  obtain ⟨_, h2, h3⟩ := handleAll_state ms ({} : Srv P) rfl he
  rw [Ne, Ne, h2, h3]
  unfold Running
  constructor
  · rintro ⟨⟨m, hm, hi⟩, hs⟩
    refine ⟨?_, ?_⟩
    · rintro ⟨_, hall⟩
      rw [(hall m hm).2] at hi; cases hi
    · rintro (h | ⟨m', hm', hs'⟩)
      · cases h
      · rw [hs m' hm'] at hs'; cases hs'
  · rintro ⟨h1, h2⟩
    have hs : ∀ m ∈ ms, m.2.isShutdown = false := by
      intro m hm
      rw [Bool.eq_false_iff]
      intro h
      exact h2 (Or.inr ⟨m, hm, h⟩)
    refine ⟨?_, hs⟩
    apply Classical.byContradiction
    intro hn
    apply h1
    refine ⟨rfl, fun m hm => ⟨hs m hm, ?_⟩⟩
    rw [Bool.eq_false_iff]
    intro h
    exact hn ⟨m, hm, h⟩

/-- The document messages do nothing unless the server is at work. -/
theorem handle_idle (s : Srv P) (id : Option Nat) (r : Req P)
    (h : s.state = .none ∨ s.state = .shutdown) : (handle s id r).1.docs = s.docs := by
  cases r <;> simp only [handle] <;> (try simp only [doInitialize]) <;> (repeat' split) <;>
    simp_all

end Verif.Lsp
