import Verif.Lsp.FrameLem3
import Verif.Lsp.CompleteLem

namespace Verif.Lsp

/-! ## C114: messages arrive in pieces -/

/-- **C114.** If every write to the buffer goes to its end: whatever the pieces are in which the bytes
    of a client arrive, the messages that are handled are the first ones that were sent, each with
    its content and charset; and when the server waits for data, it has handled every message that
    has arrived completely. -/
theorem C114_delivered (known : List Char → Bool) (fs : List Frame) (hfs : ∀ f ∈ fs, f.Ok known)
    (xs : List (List Char)) (hx : xs.flatten <+: stream fs) :
    ∃ done rest, fs = done ++ rest ∧
      (receiveAll true known {} xs).2.filter Event.isMessage = done.map Frame.event ∧
      (stream done).length ≤ xs.flatten.length ∧
      ((receiveAll true known {} xs).1.pending = false → ∀ f, rest.head? = some f →
        xs.flatten.length < (stream (done ++ [f])).length) := by
  obtain ⟨done, rest, R', h1, h2, h3, h4⟩ := run known xs fs hfs [] {} (inv_init fs) (by simpa using hx)
  rw [List.nil_append] at h3
  refine ⟨done, rest, h1, h2, by rw [h3]; simp, ?_⟩
  intro hp f hf
  have hst : stream (done ++ [f]) = stream done ++ f.text := by simp [stream]
  rw [h3, hst, List.length_append, List.length_append]
  cases rest with
  | nil => cases hf
  | cons g gs =>
    simp only [List.head?_cons, Option.some.injEq] at hf
    subst hf
    obtain ⟨_, ⟨_, _, a3⟩ | ⟨g', gs', c, e, _, a4, a5, _⟩⟩ := h4
    · have := a3 hp g gs rfl
      rw [Frame.text, List.length_append]
      omega
    · cases e
      rw [a4, Frame.text, List.length_append, List.length_append]
      omega

/-- **C114.** All messages are handled, in their order, when all bytes have arrived and the server
    waits again. -/
theorem C114_all (known : List Char → Bool) (fs : List Frame) (hfs : ∀ f ∈ fs, f.Ok known)
    (xs : List (List Char)) (hx : xs.flatten = stream fs)
    (hp : (receiveAll true known {} xs).1.pending = false) :
    (receiveAll true known {} xs).2.filter Event.isMessage = fs.map Frame.event := by
  obtain ⟨done, rest, R', h1, h2, h3, h4⟩ := run known xs fs hfs [] {} (inv_init fs)
    (by rw [List.nil_append, hx]; exact List.prefix_refl _)
  rw [List.nil_append, hx] at h3
  have hst : stream fs = stream done ++ stream rest := by rw [h1]; simp [stream]
  rw [hst] at h3
  have := List.append_cancel_left h3
  rw [← this] at h4
  have hr := inv_done rest _ h4 hp
  rw [h2, h1, hr, List.append_nil]

/-- **C114.** No error is reported if no piece ends in the middle of a header. -/
theorem C114_no_error (known : List Char → Bool) (fs : List Frame) (hfs : ∀ f ∈ fs, f.Ok known)
    (xs : List (List Char)) (hx : xs.flatten <+: stream fs)
    (hc : ∀ k, ¬ InHeader fs (xs.take k).flatten.length) :
    ∀ e ∈ (receiveAll true known {} xs).2, e.isMessage = true := by
  intro e he
  cases e with
  | message => rfl
  | parseError e =>
    exfalso
    obtain ⟨k, done, f, rest, p, h1, h2, h3, h4, h5⟩ :=
      run_err known xs fs hfs [] {} (inv_init fs) (by simpa using hx) e he
    rw [List.nil_append] at h2
    by_cases hp : p = []
    · subst hp
      cases h5
    · apply hc k
      have := List.length_pos_iff.mpr hp
      refine ⟨done, f, rest, h1, ?_, ?_⟩ <;> rw [h2, List.length_append] <;> omega

/-- **C114.** For messages with the header that qbs itself writes, an error is only possible if a
    piece ends just before a number. -/
theorem C114_no_error_plain (known : List Char → Bool) (contents : List (List Char))
    (hfs : ∀ c ∈ contents, c.length < 2 ^ 31) (xs : List (List Char))
    (hx : xs.flatten <+: (contents.map sent).flatten)
    (hc : ∀ k done f rest, contents = done ++ f :: rest →
      (xs.take k).flatten ≠ (done.map sent).flatten ++ "Content-Length: ".toList) :
    ∀ e ∈ (receiveAll true known {} xs).2, e.isMessage = true := by
  have hs : ∀ c, sent c = Frame.text ⟨[], [], c⟩ := by
    intro c
    unfold sent Frame.text
    rw [plain_header _ rfl rfl]
    simp only [headerSeparator, List.append_assoc, List.cons_append, List.nil_append]
  have hstream : ∀ cs : List (List Char), (cs.map sent).flatten
      = stream (cs.map fun c => ⟨[], [], c⟩) := by
    intro cs
    unfold stream
    rw [List.map_map]
    congr 1
    apply List.map_congr_left
    intro c _
    exact hs c
  have hok : ∀ f ∈ contents.map (fun c => (⟨[], [], c⟩ : Frame)), f.Ok known := by
    intro f hf
    obtain ⟨c, hc', rfl⟩ := List.mem_map.mp hf
    exact ⟨by simp, by simp, hfs c hc'⟩
  intro e he
  cases e with
  | message => rfl
  | parseError e =>
    exfalso
    rw [hstream] at hx
    obtain ⟨k, done, f, rest, p, h1, h2, h3, h4, h5⟩ :=
      run_err known xs _ hok [] {} (inv_init _) (by simpa using hx) e he
    rw [List.nil_append] at h2
    obtain ⟨d1, d2, e1, e2, e3⟩ := List.map_eq_append_iff.mp h1
    obtain ⟨g, gs, e4, e5, e6⟩ := List.map_eq_cons_iff.mp e3
    have hf : f.before = [] ∧ f.behind = [] ∧ f.content = g := by rw [← e5]; exact ⟨rfl, rfl, rfl⟩
    by_cases hp : p = "Content-Length: ".toList
    · apply hc k d1 g gs (by rw [e1, e4])
      rw [h2, hp, hstream, e2]
    · rw [plain_part known f hf.1 hf.2.1 ?_ p h4 h3 hp] at h5
      · cases h5
      · rw [hf.2.2]
        exact hfs g (by rw [e1, e4]; simp)

/-- **C114, part.** If a write replaces what is behind the position of the buffer, the same holds as
    long as no piece begins in the middle of a header and nothing new arrives before the messages of
    the last piece have been handled. Missing: any pieces. -/
theorem C114_overwriting_partial (known : List Char → Bool) (fs : List Frame)
    (hfs : ∀ f ∈ fs, f.Ok known) (xs : List (List Char)) (hx : xs.flatten = stream fs)
    (hc : ∀ ys x zs, xs = ys ++ x :: zs → x ≠ [] →
      (receiveAll false known {} ys).1.pending = false ∧ ¬ InHeader fs ys.flatten.length)
    (hp : (receiveAll false known {} xs).1.pending = false) :
    (receiveAll false known {} xs).2.filter Event.isMessage = fs.map Frame.event := by
  have e := run_over known xs fs hfs [] {} (inv_init fs)
    (by rw [List.nil_append, hx]; exact List.prefix_refl _) (by simpa using hc)
  rw [e] at hp ⊢
  exact C114_all known fs hfs xs hx hp

/-! ## C115: the server has the text of the client -/

/-- **C115.** A position behind the first line is found. -/
theorem C115_position (pre rest : List Char) (h : '\n' ∈ pre) :
    posToOffset (posOf pre) (pre ++ rest) = pre.length :=
  posToOffset_pre pre rest h

/-- **C115, part.** After any history of opening, editing, saving and closing files, the server has
    for every file the text that the user sees and the one that was saved, and it reports no error.
    Missing: edits that begin in the first line of a file; for these it is not true. -/
theorem C115_text_partial {P : Type} [DecidableEq P] (s : Srv P)
    (hs : s.state = .initRequest ∨ s.state = .initNotification) (ho : s.open' = true)
    (rs : List (Req P)) (c' : P → Option Document) (h : ClientRun s.docs rs c')
    (ids : List (Option Nat)) (hl : ids.length = rs.length) :
    (handleAll s (ids.zip rs)).1.docs = c' ∧ (handleAll s (ids.zip rs)).2 = [] := by
  have ha : Active s := by
    refine ⟨?_, ?_, ho⟩ <;> rcases hs with h | h <;> rw [h] <;> decide
  rw [handleAll_doc h s ha rfl ids hl]
  exact ⟨rfl, rfl⟩

/-- **C115 finding.** In the first line a text is inserted one character too far to the right. -/
theorem C115_first_line (pre new post : List Char) (c : Char) (h : '\n' ∉ pre) :
    applyChanges (pre ++ [] ++ c :: post) [(Edit.part pre [] (c :: post) new).change]
      = (pre ++ [c] ++ new ++ post, false) := by
  have h1 := posToOffset_first pre (c :: post) h
  simp only [Edit.change, applyChanges, List.append_nil, h1]
  rw [if_neg (by omega)]
  unfold replaceAt
  rw [if_neg]
  · have e1 : ((pre.length : Int) + 1).toNat = pre.length + 1 := by omega
    have e2 : ((pre.length : Int) + 1 - (pre.length + 1)).toNat = 0 := by omega
    rw [e1, e2, Nat.add_zero, show pre ++ c :: post = (pre ++ [c]) ++ post by simp]
    rw [List.take_left' (by simp), List.drop_left' (by simp)]
  · simp only [List.length_append, List.length_cons]
    omega

/-- **C115 finding.** What is typed at the end of a text of one line is lost; in particular the first
    thing that is typed into an empty file. -/
theorem C115_one_line (pre new : List Char) (h : '\n' ∉ pre) :
    applyChanges (pre ++ [] ++ []) [(Edit.part pre [] [] new).change] = (pre, false) := by
  have h1 := posToOffset_first pre [] h
  rw [List.append_nil] at h1
  simp only [Edit.change, applyChanges, List.append_nil, h1]
  rw [if_neg (by omega)]
  unfold replaceAt
  rw [if_pos (by omega)]

/-- **C115 finding.** If the first line is joined with a later one, one character too few is removed. -/
theorem C115_first_line_joined (pre mid post new : List Char) (c : Char) (h : '\n' ∉ pre)
    (hm : '\n' ∈ c :: mid) :
    applyChanges (pre ++ (c :: mid) ++ post) [(Edit.part pre (c :: mid) post new).change]
      = (pre ++ [c] ++ new ++ post, false) := by
  have h1 : posToOffset (posOf pre) (pre ++ (c :: mid) ++ post) = pre.length + 1 := by
    rw [List.append_assoc]; exact posToOffset_first pre _ h
  have h2 : posToOffset (posOf (pre ++ (c :: mid))) (pre ++ (c :: mid) ++ post)
      = (pre ++ (c :: mid)).length :=
    posToOffset_pre _ post (List.mem_append_right _ hm)
  simp only [Edit.change, applyChanges, h1, h2]
  rw [if_neg]
  · unfold replaceAt
    rw [if_neg]
    · have e1 : ((pre.length : Int) + 1).toNat = pre.length + 1 := by omega
      have e2 : (((pre ++ c :: mid).length : Int) - (pre.length + 1)).toNat = mid.length := by
        simp; omega
      rw [e1, e2, show pre ++ c :: mid ++ post = (pre ++ [c]) ++ (mid ++ post) by simp]
      rw [List.take_left' (by simp), ← List.drop_drop, List.drop_left' (by simp), List.drop_left]
    · simp only [List.length_append, List.length_cons]
      omega
  · simp only [List.length_append, List.length_cons]
    omega

/-- **C115.** A position behind the first line counts as up to date exactly if the text before it has
    not changed since the file was saved. -/
theorem C115_up_to_date (pre rest current : List Char) (h : '\n' ∈ pre) :
    (Document.mk (pre ++ rest) current).isPositionUpToDate (posOf pre) = true ↔ pre <+: current := by
  rw [upToDate_iff _ _ pre.length (posToOffset_pre pre rest h)]
  simp only [List.take_left]
  constructor
  · rintro ⟨_, h2⟩
    rw [← h2]
    exact List.take_prefix _ _
  · rintro ⟨t, rfl⟩
    simp

/-- **C115 finding.** In the first line one character more is compared: the end of a file of one line
    is never up to date, although nothing has changed. -/
theorem C115_up_to_date_first (pre : List Char) (h : '\n' ∉ pre) :
    (Document.mk pre pre).isPositionUpToDate (posOf pre) = false := by
  have h1 := posToOffset_first pre [] h
  rw [List.append_nil] at h1
  rw [Bool.eq_false_iff, Ne, upToDate_iff _ _ (pre.length + 1) (by rw [h1]; simp)]
  simp only
  omega

/-! ## C116: requests and notifications -/

/-- **C116.** Every request is answered exactly once, with its id and in the order of the requests,
    in whichever state the server is. -/
theorem C116_answered {P : Type} [DecidableEq P] (ms : List (Option Nat × Req P)) : ∀ (s : Srv P),
    s.open' = true → (∀ m ∈ ms, m.2.isExit = false) → (∀ m ∈ ms, m.2.isRequest = m.1.isSome) →
    (handleAll s ms).2.filterMap Out.id = ms.filterMap Prod.fst := by
  induction ms with
  | nil => intros; rfl
  | cons m ms ih =>
    intro s ho he hr
    obtain ⟨id, r⟩ := m
    have he1 := he (id, r) (by simp)
    have hr1 := hr (id, r) (by simp)
    simp only at he1 hr1
    rw [handleAll, if_pos ho]
    have := ih (handle s id r).1 (by rw [handle_open s id r he1, ho])
      (fun m hm => he m (by simp [hm])) (fun m hm => hr m (by simp [hm]))
    simp only [List.filterMap_append, this]
    cases id with
    | none =>
      have h0 : (handle s none r).2.filterMap Out.id = [] := by
        rw [List.filterMap_eq_nil_iff]
        exact handle_none s r (by rw [hr1]; rfl)
      rw [h0, List.nil_append, List.filterMap_cons_none rfl]
    | some i =>
      obtain ⟨o, h1, h2⟩ := handle_response s (some i) r (by rw [hr1]; rfl)
      have h3 : o.id = some i := by
        rcases h2 with rfl | ⟨c, rfl⟩ <;> rfl
      rw [h1, List.filterMap_cons_some (b := i) h3]
      rfl

/-- **C116.** A question about the code gets a result exactly if the client has sent `initialize` and
    has not sent `shutdown`; otherwise it gets an error. -/
theorem C116_served {P : Type} [DecidableEq P] (ms : List (Option Nat × Req P))
    (he : ∀ m ∈ ms, m.2.isExit = false) (id : Option Nat) (r : Req P)
    (hr : r = .definition ∨ r = .completion) :
    (Running ms → (handle (handleAll ({} : Srv P) ms).1 id r).2 = [.result id]) ∧
    (¬ Running ms → ∃ c, (handle (handleAll ({} : Srv P) ms).1 id r).2 = [.error id c]) := by
  rw [running_iff ms he]
  generalize (handleAll ({} : Srv P) ms).1 = s
  rcases hr with rfl | rfl <;> cases hs : s.state <;> simp [handle, hs]

/-- **C116.** Only between `initialize` and `shutdown` do the notifications of a client have an
    effect. -/
theorem C116_documents {P : Type} [DecidableEq P] (ms : List (Option Nat × Req P))
    (he : ∀ m ∈ ms, m.2.isExit = false) (hn : ¬ Running ms) (id : Option Nat) (r : Req P) :
    (handle (handleAll ({} : Srv P) ms).1 id r).1.docs = (handleAll ({} : Srv P) ms).1.docs := by
  apply handle_idle
  rw [running_iff ms he] at hn
  generalize (handleAll ({} : Srv P) ms).1.state = st at hn ⊢
  cases st <;> simp_all

/-- **C116.** After `shutdown` everything except `exit` is answered with an error. -/
theorem C116_shutdown {P : Type} [DecidableEq P] (ms : List (Option Nat × Req P))
    (he : ∀ m ∈ ms, m.2.isExit = false) (hs : ∃ m ∈ ms, m.2.isShutdown = true) (id : Option Nat)
    (r : Req P) (hr : r.isExit = false) :
    (handle (handleAll ({} : Srv P) ms).1 id r).2 = [.error id .invalidRequest] := by
  have := (handleAll_state ms ({} : Srv P) rfl he).2.1.mpr (Or.inr hs)
  generalize (handleAll ({} : Srv P) ms).1 = s at this ⊢
  cases r <;> simp only [Req.isExit, Bool.true_eq_false] at hr <;> simp [handle, this]

/-- **C116.** Nothing is sent for what comes after `exit`. -/
theorem C116_exit {P : Type} [DecidableEq P] (s : Srv P) (id : Option Nat)
    (a b : List (Option Nat × Req P)) :
    (handleAll s (a ++ (id, .exit) :: b)).2 = (handleAll s a).2 := by
  induction a generalizing s with
  | nil =>
    simp only [List.nil_append, handleAll]
    split
    · simp only [handle, List.nil_append]
      cases b with
      | nil => rfl
      | cons m b => simp [handleAll]
    · rfl
  | cons m a ih =>
    obtain ⟨i, r⟩ := m
    simp only [List.cons_append, handleAll]
    split
    · simp only [ih]
    · rfl

/-- **C116 finding.** A notification that the server does not know (such as `$/cancelRequest` or
    `$/setTrace`) is answered with an error, which no notification may be. -/
theorem C116_notification {P : Type} [DecidableEq P] (s : Srv P) (hs : s.state ≠ .none)
    (h2 : s.state ≠ .shutdown) : (handle s none .other).2 = [.error none .methodNotFound] := by
  simp [handle, hs, h2]

/-- **C116 finding.** The notification `initialized` is answered with an error as well, if it comes a
    second time. -/
theorem C116_initialized_twice {P : Type} [DecidableEq P] (s : Srv P)
    (h1 : s.state = .initNotification) :
    handle s none .initialized = (s, [.error none .invalidRequest]) := by
  simp [handle, doInitialized, h1]

/-- **C116 finding.** `shutdown` is accepted from a client that has not sent `initialize`, and such a
    server cannot be initialized any more. -/
theorem C116_shutdown_first : (handleAll ({} : Srv Nat) [(some 1, .shutdown), (some 2, .initialize)]).2
    = [.result (some 1), .error (some 2) .invalidRequest] := by decide

/-- **C116 finding.** If a range of a change is not valid, the changes before it stay in effect and
    those behind it are dropped. -/
theorem C116_half_applied (a b : List Change) (p q : Pos) (t doc u : List Char)
    (ha : applyChanges doc a = (u, false)) (hp : posToOffset p u = -1) :
    applyChanges doc (a ++ ⟨some (p, q), t⟩ :: b) = (u, true) := by
  induction a generalizing doc with
  | nil =>
    simp only [applyChanges, Prod.mk.injEq, and_true] at ha
    subst ha
    simp only [List.nil_append, applyChanges, hp, true_or, if_true]
  | cons c a ih =>
    rw [List.cons_append]
    rw [applyChanges] at ha ⊢
    split at ha
    · exact ih _ ha
    · simp only at ha ⊢
      split at ha
      · cases ha
      · rename_i hc
        rw [if_neg hc]
        exact ih _ ha

/-! ## C117: completion -/

/-- **C117, part.** Behind the first line: what is offered is exactly what can follow the qualified
    name before the cursor, in one of the products, and nothing is offered twice; nothing is offered
    if there is no name before the cursor. Missing: the first line. -/
theorem C117_offered_partial (isId : Char → Bool) (hdot : isId '.' = false)
    (skip : List Char → Nat → Bool) (products : List (List Module)) (hp : products ≠ [])
    (pre rest : List Char) (hn : '\n' ∈ pre)
    (hs : skip (pre ++ rest) (pre.length - 1) = false)
    (ms : List (List Char)) (ident : List Char) (ht : Typed isId pre ms ident) :
    if ms = [] ∧ ident = [] then complete isId skip products (pre ++ rest) (posOf pre) = none
    else ∃ res, complete isId skip products (pre ++ rest) (posOf pre) = some res ∧
      (res.map Prod.fst).Nodup ∧
      ∀ l, l ∈ res.map Prod.fst ↔ ∃ p ∈ products, Offers ms ident p l := by
  have h0 : pre ≠ [] := by intro h; rw [h] at hn; cases hn
  have hl := List.length_pos_iff.mpr h0
  have e1 : posToOffset (posOf pre) (pre ++ rest) - 1 = ((pre.length - 1 : Nat) : Int) := by
    rw [posToOffset_pre pre rest hn]; omega
  have hc := collect_spec isId hdot pre rest ms ident ht h0
  have hcomp : complete isId skip products (pre ++ rest) (posOf pre) =
      if ms = [] ∧ ident = [] then none
      else some (products.foldl (completeProduct ms ident) []) := by
    unfold complete
    rw [if_neg hp]
    simp only [e1, Int.toNat_natCast]
    rw [if_neg]
    · rw [hs]
      simp only [Bool.false_eq_true, if_false, hc]
    · simp only [List.length_append]
      omega
  rw [hcomp]
  split
  · rfl
  · refine ⟨_, rfl, ?_, ?_⟩
    · exact (completeAll_spec ms ident products [] []).2 (by simp)
    · intro l
      rw [(completeAll_spec ms ident products [] l).1]
      simp

end Verif.Lsp
