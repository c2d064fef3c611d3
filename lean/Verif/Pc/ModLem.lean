import Verif.Pc.ArgLem

/-! # Lemmas about lists of packages -/

namespace Verif.Pc

theorem nsep_nspace {c : Char} (h : isSeparator c = false) : isSpace c = false := by
  unfold isSeparator at h; simp at h; exact h.2

theorem space_sep {c : Char} (h : isSpace c = true) : isSeparator c = true := by
  unfold isSeparator; simp [h]

theorem space_nop {c : Char} (h : isSpace c = true) : isOperator c = false := by
  unfold isSpace at h
  simp only [Bool.or_eq_true, beq_iff_eq] at h
  rcases h with ((((rfl | rfl) | rfl) | rfl) | rfl) | rfl <;> decide

theorem op_nspace {c : Char} (h : isOperator c = true) : isSpace c = false := by
  cases hs : isSpace c with
  | false => rfl
  | true => rw [space_nop hs] at h; cases h

/-- As long as the state stays inside, characters are collected. -/
theorem splitModules_step {st st' : State} {c : Char} {s : Text} (cur : Text) (h : st.next c s = st') (hne : st' ≠ .outside ∨ st = .outside) :
    splitModules st cur (c :: s) = splitModules st' (cur ++ [c]) s := by
  rw [splitModules]
  simp only [h]
  rw [if_neg]
  rintro ⟨h1, h2⟩
  rcases hne with h' | h'
  · exact h' h1
  · exact h2 h'

theorem splitModules_push {st : State} {c : Char} {s : Text} (cur : Text) (h : st.next c s = .outside) (hne : st ≠ .outside) :
    splitModules st cur (c :: s) = cur.dropWhile isSeparator :: splitModules .outside [c] s := by
  rw [splitModules]
  simp only [h]
  rw [if_pos ⟨trivial, hne⟩]

theorem splitModules_run {st : State} {l : Text} (cur s : Text) (hst : st ≠ .outside ∨ st = .outside)
    (h : ∀ c ∈ l, ∀ s, st.next c s = st) :
    splitModules st cur (l ++ s) = splitModules st (cur ++ l) s := by
  induction l generalizing cur with
  | nil => simp
  | cons c l ih =>
    rw [List.cons_append, splitModules_step cur (h c (by simp) _) hst, ih _ (fun x hx => h x (by simp [hx]))]
    simp

theorem splitModules_seps {l : Text} (cur s : Text) (h : ∀ c ∈ l, isSeparator c = true) :
    splitModules .outside cur (l ++ s) = splitModules .outside (cur ++ l) s :=
  splitModules_run cur s (.inr rfl) (fun c hc s => by simp [State.next, h c hc])

theorem splitModules_name {n : Text} (cur s : Text) (hne : n ≠ []) (h : ∀ c ∈ n, isSeparator c = false) :
    splitModules .outside cur (n ++ s) = splitModules .inName (cur ++ n) s := by
  cases n with
  | nil => exact absurd rfl hne
  | cons c n =>
    rw [List.cons_append, splitModules_step (st' := .inName) cur (by simp [State.next, h c]) (.inl (by simp)),
      splitModules_run _ _ (.inl (by simp)) (fun x hx s => by
        simp [State.next, h x (by simp [hx]), nsep_nspace (h x (by simp [hx]))])]
    simp

theorem dropWhile_seps {a s : Text} (ha : ∀ c ∈ a, isSeparator c = true) (hs : ∀ c l, s = c :: l → isSeparator c = false) :
    (a ++ s).dropWhile isSeparator = s := by
  induction a with
  | nil =>
    cases s with
    | nil => rfl
    | cons c l => simp [List.dropWhile, hs c l rfl]
  | cons x a ih =>
    simp only [List.cons_append, List.dropWhile, ha x (by simp)]
    exact ih (fun c hc => ha c (by simp [hc]))

theorem splitModules_version {b1 b2 v : Text} {op : Comparison} (cur s : Text) (hop : op ≠ .alwaysMatch) (h1 : b1 ≠ [])
    (h2 : b2 ≠ []) (hv : v ≠ []) (hs1 : ∀ c ∈ b1, isSpace c = true) (hs2 : ∀ c ∈ b2, isSpace c = true)
    (hsv : ∀ c ∈ v, isSeparator c = false) :
    splitModules .inName cur (b1 ++ op.text ++ b2 ++ v ++ s) = splitModules .inVersion (cur ++ (b1 ++ op.text ++ b2 ++ v)) s := by
  obtain ⟨o, os, ho, hoo, hos⟩ : ∃ o os, op.text = o :: os ∧ isOperator o = true ∧ ∀ c ∈ os, isOperator c = true := by
    cases op <;> first | exact absurd rfl hop | exact ⟨_, _, rfl, by decide, by decide⟩
  cases b1 with
  | nil => exact absurd rfl h1
  | cons c b1 =>
  cases b2 with
  | nil => exact absurd rfl h2
  | cons d b2 =>
  cases v with
  | nil => exact absurd rfl hv
  | cons e v =>
    rw [ho]
    simp only [List.cons_append, List.append_assoc]
    have hdw : (b1 ++ o :: (os ++ d :: (b2 ++ e :: (v ++ s)))).dropWhile isSpace = o :: (os ++ d :: (b2 ++ e :: (v ++ s))) :=
      dropWhile_spaces (fun x hx => hs1 x (by simp [hx])) (by intro x l hx; cases hx; exact op_nspace hoo)
    rw [splitModules_step (st' := .beforeOperator) cur (by simp [State.next, hs1 c, hdw, hoo]) (.inl (by simp)),
      splitModules_run _ _ (.inl (by simp)) (fun x hx s => by simp [State.next, hs1 x (by simp [hx])]),
      splitModules_step (st' := .inOperator) _ (by simp [State.next, hoo, op_nspace hoo]) (.inl (by simp)),
      splitModules_run _ _ (.inl (by simp)) (fun x hx s => by simp [State.next, hos x hx]),
      splitModules_step (st' := .afterOperator) _ (by simp [State.next, space_nop (hs2 d (by simp))]) (.inl (by simp)),
      splitModules_run _ _ (.inl (by simp)) (fun x hx s => by simp [State.next, hs2 x (by simp [hx])]),
      splitModules_step (st' := .inVersion) _ (by simp [State.next, nsep_nspace (hsv e (by simp))]) (.inl (by simp)),
      splitModules_run _ _ (.inl (by simp)) (fun x hx s => by simp [State.next, hsv x (by simp [hx])])]
    simp

/-- The state after an entry -/
def Entry.state (e : Entry) : State := match e.version with | none => .inName | some _ => .inVersion

theorem splitModules_body {e : Entry} (h : e.ok) (cur s : Text) :
    splitModules .outside cur (e.body ++ s) = splitModules e.state (cur ++ e.body) s := by
  obtain ⟨c, l, hn, -⟩ := h.name
  unfold Entry.body Entry.state
  cases hv : e.version with
  | none =>
    simp only [List.append_nil]
    exact splitModules_name cur s (by rw [hn]; simp) h.noSep
  | some x =>
    obtain ⟨b1, op, b2, v⟩ := x
    obtain ⟨k1, k2, k3, k4, k5, k6, k7⟩ := h.version b1 op b2 v hv
    simp only
    rw [List.append_assoc, splitModules_name cur _ (by rw [hn]; simp) h.noSep, splitModules_version _ _ k1 k2 k3 k4 k5 k6 k7]
    simp

theorem body_head {e : Entry} (h : e.ok) : ∃ c l, e.body = c :: l ∧ isSeparator c = false ∧ isOperator c = false := by
  obtain ⟨c, l, hn, ho⟩ := h.name
  unfold Entry.body
  rw [hn]
  exact ⟨c, _, rfl, h.noSep c (by rw [hn]; simp), ho⟩

theorem dropWhile_sep_head {l s : Text} (hl : ∀ c ∈ l, isSeparator c = true) (hs : ∀ c t, s = c :: t → isOperator c = false ∧ isSpace c = false) :
    ∀ c t, (l ++ s).dropWhile isSpace = c :: t → isOperator c = false := by
  induction l with
  | nil =>
    intro c t h
    cases s with
    | nil => cases h
    | cons x s =>
      obtain ⟨h1, h2⟩ := hs x s rfl
      simp only [List.nil_append, List.dropWhile, h2] at h
      cases h; exact h1
  | cons x l ih =>
    intro c t h
    simp only [List.cons_append, List.dropWhile] at h
    cases hx : isSpace x with
    | true => rw [hx] at h; exact ih (fun y hy => hl y (by simp [hy])) c t h
    | false =>
      rw [hx] at h
      cases h
      have := hl x (by simp)
      unfold isSeparator at this
      simp [hx] at this
      subst this; decide

theorem splitModules_entries (es : List Entry) : okEntries es → ∀ cur, (∀ c ∈ cur, isSeparator c = true) → (es = [] → cur = []) →
    splitModules .outside cur (es.flatMap Entry.text) = es.map Entry.body := by
  induction es with
  | nil => intro _ cur _ h0; rw [h0 rfl]; simp [splitModules]
  | cons e l ih =>
    intro hok cur hcur _
    have hdrop : e.ok → (cur ++ e.body).dropWhile isSeparator = e.body := by
      intro he
      obtain ⟨c, t, hb, hc, -⟩ := body_head he
      exact dropWhile_seps hcur (by intro x y h; rw [hb] at h; cases h; exact hc)
    cases l with
    | nil =>
      obtain ⟨he, hs⟩ := hok
      obtain ⟨c, t, hb, hc, -⟩ := body_head he
      simp only [List.flatMap_cons, List.flatMap_nil, Entry.text, hs, List.append_nil, List.map_cons, List.map_nil]
      have := splitModules_body he cur []
      rw [List.append_nil] at this
      rw [this, splitModules, if_neg (by rw [hb]; simp), hdrop he]
    | cons f l =>
      obtain ⟨he, hs, hsep, hrest⟩ := hok
      have hf : f.ok := by cases l with
        | nil => exact hrest.1
        | cons g l => exact hrest.1
      rw [List.flatMap_cons, Entry.text, List.append_assoc, splitModules_body he cur]
      cases hse : e.separators with
      | nil => exact absurd hse hs
      | cons c t =>
        rw [hse] at hsep
        have hc := hsep c (by simp)
        have ht : ∀ x ∈ t, isSeparator x = true := fun x hx => hsep x (by simp [hx])
        have hnext : e.state.next c (t ++ (f :: l).flatMap Entry.text) = .outside := by
          unfold Entry.state
          cases e.version with
          | some x => simp [State.next, hc]
          | none =>
            simp only [State.next]
            cases hsp : isSpace c with
            | false => simp [hc]
            | true =>
              simp only [if_true]
              have := dropWhile_sep_head (l := t) (s := (f :: l).flatMap Entry.text) ht (by
                intro x y hxy
                obtain ⟨c', t', hb, hc', ho'⟩ := body_head hf
                rw [List.flatMap_cons, Entry.text, hb] at hxy
                cases hxy
                exact ⟨ho', nsep_nspace hc'⟩)
              cases hd : (t ++ (f :: l).flatMap Entry.text).dropWhile isSpace with
              | nil => rfl
              | cons x y => simp [this x y hd]
        rw [List.cons_append, splitModules_push _ hnext (by unfold Entry.state; cases e.version <;> simp), hdrop he, List.map_cons,
          splitModules_seps _ _ ht, ih hrest _ (by simpa using hsep) (by simp)]

theorem word_eq {a b s : Text} (ha : ∀ c ∈ a, isSpace c = false) (hb : ∀ c ∈ b, isSpace c = true) (hne : b = [] → s = [])
    (hs : ∀ c l, s = c :: l → isSpace c = false) : word (a ++ b ++ s) = (a, s) := by
  have key : (a ++ b ++ s).takeWhile (fun c => !isSpace c) = a ∧ (a ++ b ++ s).dropWhile (fun c => !isSpace c) = b ++ s := by
    induction a with
    | nil =>
      cases b with
      | nil => simp [hne rfl]
      | cons x b => simp [List.takeWhile, List.dropWhile, hb x]
    | cons x a ih =>
      have := ih (fun c hc => ha c (by simp [hc]))
      simp [List.takeWhile, List.dropWhile, ha x] at this ⊢
      exact this
  unfold word
  rw [key.1, key.2, dropWhile_spaces hb hs]

theorem parseModule_body {e : Entry} (h : e.ok) : parseModule e.body = .ok e.value := by
  obtain ⟨c, l, hn, -⟩ := h.name
  have hns : ∀ c ∈ e.name, isSpace c = false := fun c hc => nsep_nspace (h.noSep c hc)
  have hne : e.name ≠ [] := by rw [hn]; simp
  unfold Entry.body Entry.value parseModule
  cases hv : e.version with
  | none =>
    have hw : word (e.name ++ []) = (e.name, []) := by
      have := word_eq (a := e.name) (b := []) (s := []) hns (by simp) (by simp) (by simp)
      simpa using this
    simp only [hw, if_neg hne]
    simp [word, comparison]
  | some x =>
    obtain ⟨b1, op, b2, v⟩ := x
    obtain ⟨k1, k2, k3, k4, k5, k6, k7⟩ := h.version b1 op b2 v hv
    have hop : (∀ c ∈ op.text, isSpace c = false) ∧ op.text ≠ [] ∧ comparison op.text = some op := by
      cases op <;> first | exact absurd rfl k1 | decide
    have hvs : ∀ c ∈ v, isSpace c = false := fun c hc => nsep_nspace (k7 c hc)
    have w1 : word (e.name ++ (b1 ++ op.text ++ b2 ++ v)) = (e.name, op.text ++ b2 ++ v) := by
      have := word_eq (a := e.name) (b := b1) (s := op.text ++ b2 ++ v) hns k5 (fun h => absurd h k2) (by
        intro x y hxy
        cases ho : op.text with
        | nil => exact absurd ho hop.2.1
        | cons a b => rw [ho] at hxy; cases hxy; exact hop.1 _ (by rw [ho]; simp))
      simpa using this
    have w2 : word (op.text ++ b2 ++ v) = (op.text, v) :=
      word_eq hop.1 k6 (fun h => absurd h k3) (by intro x y hxy; subst hxy; exact hvs _ (by simp))
    have w3 : word v = (v, []) := by
      have := word_eq (a := v) (b := []) (s := []) hvs (by simp) (by simp) (by simp)
      simpa using this
    simp only [w1, w2, w3, if_neg hne, hop.2.2]
    rw [if_neg (by rintro ⟨_, h⟩; exact k4 h)]

theorem parseModules_bodies {es : List Entry} (h : ∀ e ∈ es, e.ok) : parseModules (es.map Entry.body) = .ok (es.map Entry.value) := by
  induction es with
  | nil => rfl
  | cons e es ih =>
    simp only [List.map_cons, parseModules, parseModule_body (h e (by simp)), ih (fun x hx => h x (by simp [hx]))]
    rfl

theorem okEntries_ok {es : List Entry} (h : okEntries es) : ∀ e ∈ es, e.ok := by
  induction es with
  | nil => simp
  | cons e l ih =>
    cases l with
    | nil => intro x hx; simp only [List.mem_singleton] at hx; subst hx; exact h.1
    | cons f l =>
      intro x hx
      simp only [List.mem_cons] at hx
      rcases hx with rfl | hx
      · exact h.1
      · exact ih h.2.2.2 x (by simpa using hx)

theorem parseModuleList_entries {lead : Text} {es : List Entry} (h : okEntries es) (hl : ∀ c ∈ lead, isSeparator c = true)
    (h0 : es = [] → lead = []) : parseModuleList (lead ++ es.flatMap Entry.text) = .ok (es.map Entry.value) := by
  unfold parseModuleList
  rw [splitModules_seps _ _ hl, List.nil_append, splitModules_entries es h lead hl h0, parseModules_bodies (okEntries_ok h)]

end Verif.Pc
