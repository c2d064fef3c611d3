import Verif.EnvSetup.Spec

namespace Verif.EnvSetup

variable {N E : Type} [DecidableEq N]

/-- What has been sorted so far: no name twice, children first. -/
structure Ordered (ch : N → List N) (l : List N) : Prop where
  nodup : l.Nodup
  after : ∀ a n b, l = a ++ n :: b → ∀ d ∈ ch n, d ∈ a

omit [DecidableEq N] in
theorem Ordered.nil (ch : N → List N) : Ordered ch [] :=
  ⟨List.nodup_nil, fun a n b h => by simp at h⟩

omit [DecidableEq N] in
theorem Ordered.snoc {ch : N → List N} {l : List N} {n : N} (h : Ordered ch l) (hn : n ∉ l)
    (hd : ∀ d ∈ ch n, d ∈ l) : Ordered ch (l ++ [n]) := by
  refine ⟨?_, ?_⟩
  · rw [List.nodup_append]
    refine ⟨h.nodup, by simp, ?_⟩
    intro a ha b hb
    simp only [List.mem_singleton] at hb
    subst hb
    intro e
    exact hn (e ▸ ha)
  · intro a m b e d hdm
    rcases List.eq_nil_or_concat b with hb | ⟨b', x, hb⟩
    · subst hb
      have := List.append_inj' e rfl
      obtain ⟨e1, e2⟩ := this
      simp only [List.cons.injEq, and_true] at e2
      subst e1; subst e2
      exact hd d hdm
    · subst hb
      have e' : l ++ [n] = (a ++ m :: b') ++ [x] := by simp [e]
      have := List.append_inj' e' rfl
      exact h.after a m b' this.1 d hdm

/-- What a call of the sorting function gives. -/
structure SortOk (ch : N → List N) (ms seen : List N) (r : List N × List N) : Prop where
  eq : r.2 = seen ++ r.1
  ordered : Ordered ch r.2
  all : ∀ m ∈ ms, m ∈ r.2

theorem sortEach_ok {ch : N → List N} (rec : List N → List N → Option (List N × List N))
    (ms : List N) (hrec : ∀ m ∈ ms, ∀ seen, Ordered ch seen →
      ∃ r, rec (ch m) seen = some r ∧ SortOk ch (ch m) seen r) :
    ∀ seen, Ordered ch seen → ∃ r, sortEach rec ch ms seen = some r ∧ SortOk ch ms seen r := by
  induction ms with
  | nil =>
    intro seen hs
    exact ⟨([], seen), rfl, by simp, hs, by simp⟩
  | cons m ms ih =>
    intro seen hs
    obtain ⟨⟨r, s1⟩, hr, hok⟩ := hrec m (by simp) seen hs
    have he : s1 = seen ++ r := hok.eq
    have ho : Ordered ch s1 := hok.ordered
    have ha : ∀ d ∈ ch m, d ∈ s1 := hok.all
    have ih' := ih (fun x hx => hrec x (by simp [hx]))
    by_cases hm : m ∈ s1
    · obtain ⟨⟨rs, s2⟩, h2, hok2⟩ := ih' s1 ho
      have he2 : s2 = s1 ++ rs := hok2.eq
      refine ⟨(r ++ rs, s2), ?_, ?_, hok2.ordered, ?_⟩
      · simp only [sortEach, hr, hm, if_true, h2]
      · simp [he2, he]
      · intro x hx
        rcases List.mem_cons.1 hx with hx | hx
        · subst hx
          show x ∈ s2
          rw [he2]; simp [hm]
        · exact hok2.all x hx
    · have hs' := ho.snoc hm ha
      obtain ⟨⟨rs, s2⟩, h2, hok2⟩ := ih' _ hs'
      have he2 : s2 = s1 ++ [m] ++ rs := hok2.eq
      refine ⟨(r ++ [m] ++ rs, s2), ?_, ?_, hok2.ordered, ?_⟩
      · simp only [sortEach, hr, hm, if_false, h2]
      · simp [he2, he]
      · intro x hx
        rcases List.mem_cons.1 hx with hx | hx
        · subst hx
          show x ∈ s2
          rw [he2]; simp
        · exact hok2.all x hx

theorem topSort_ok (ch : N → List N) (rank : N → Nat) (hrank : ∀ n, ∀ d ∈ ch n, rank d < rank n) :
    ∀ k ms, (∀ m ∈ ms, rank m < k) → ∀ seen, Ordered ch seen →
      ∃ r, topSort ch k ms seen = some r ∧ SortOk ch ms seen r := by
  intro k
  induction k with
  | zero =>
    intro ms hms seen hs
    have : ms = [] := by
      cases ms with
      | nil => rfl
      | cons m _ => exact absurd (hms m (by simp)) (by omega)
    subst this
    exact ⟨([], seen), by simp [topSort], by simp, hs, by simp⟩
  | succ k ih =>
    intro ms hms seen hs
    show ∃ r, sortEach (topSort ch k) ch ms seen = some r ∧ _
    refine sortEach_ok (topSort ch k) ms ?_ seen hs
    intro m hm seen' hs'
    refine ih (ch m) ?_ seen' hs'
    intro d hd
    have := hrank m d hd
    have := hms m hm
    omega

/-- More depth does not change a result. -/
theorem sortEach_mono {ch : N → List N} {rec rec' : List N → List N → Option (List N × List N)}
    (h : ∀ l s r, rec l s = some r → rec' l s = some r) :
    ∀ ms seen r, sortEach rec ch ms seen = some r → sortEach rec' ch ms seen = some r := by
  intro ms
  induction ms with
  | nil => intro seen r hr; exact hr
  | cons m ms ih =>
    intro seen r hr
    simp only [sortEach] at hr ⊢
    cases h1 : rec (ch m) seen with
    | none => simp [h1] at hr
    | some p =>
      obtain ⟨a, b⟩ := p
      simp only [h1] at hr
      simp only [h _ _ _ h1]
      cases h2 : sortEach rec ch ms (if m ∈ b then b else b ++ [m]) with
      | none => simp [h2] at hr
      | some q =>
        simp only [h2] at hr
        simp only [ih _ _ h2]
        exact hr

theorem topSort_succ {ch : N → List N} : ∀ k ms seen r, topSort ch k ms seen = some r →
    topSort ch (k + 1) ms seen = some r := by
  intro k
  induction k with
  | zero =>
    intro ms seen r h
    by_cases hm : ms = []
    · subst hm
      simpa [topSort, sortEach] using h
    · simp [topSort, hm] at h
  | succ k ih =>
    intro ms seen r h
    exact sortEach_mono ih ms seen r h

theorem topSort_mono {ch : N → List N} {k k' : Nat} (hk : k ≤ k') {ms seen r}
    (h : topSort ch k ms seen = some r) : topSort ch k' ms seen = some r := by
  induction hk with
  | refl => exact h
  | step _ ih => exact topSort_succ _ _ _ _ ih

/-- Only names reached from the given ones are put into the result. -/
theorem sortEach_mem {ch : N → List N} {P : N → Prop}
    {rec : List N → List N → Option (List N × List N)}
    (hch : ∀ n, P n → ∀ d ∈ ch n, P d)
    (h : ∀ l s r, (∀ x ∈ l, P x) → rec l s = some r → ∀ x ∈ r.1, P x) :
    ∀ ms seen r, (∀ x ∈ ms, P x) → sortEach rec ch ms seen = some r → ∀ x ∈ r.1, P x := by
  intro ms
  induction ms with
  | nil =>
    intro seen r _ hr x hx
    simp only [sortEach, Option.some.injEq] at hr
    subst hr
    simp at hx
  | cons m ms ih =>
    intro seen r hms hr x hx
    simp only [sortEach] at hr
    cases h1 : rec (ch m) seen with
    | none => simp [h1] at hr
    | some p =>
      obtain ⟨a, b⟩ := p
      simp only [h1] at hr
      cases h2 : sortEach rec ch ms (if m ∈ b then b else b ++ [m]) with
      | none => simp [h2] at hr
      | some q =>
        simp only [h2, Option.some.injEq] at hr
        subst hr
        have hm := hms m (by simp)
        have hA := h _ _ _ (hch m hm) h1
        have hB := ih _ _ (fun y hy => hms y (by simp [hy])) h2
        rcases List.mem_append.1 hx with hx | hx
        · by_cases hb : m ∈ b
          · rw [if_pos hb] at hx
            exact hA x hx
          · rw [if_neg hb] at hx
            rcases List.mem_append.1 hx with hx | hx
            · exact hA x hx
            · simp only [List.mem_singleton] at hx
              subst hx; exact hm
        · exact hB x hx

theorem topSort_mem {ch : N → List N} {P : N → Prop} (hch : ∀ n, P n → ∀ d ∈ ch n, P d) :
    ∀ k ms seen r, (∀ x ∈ ms, P x) → topSort ch k ms seen = some r → ∀ x ∈ r.1, P x := by
  intro k
  induction k with
  | zero =>
    intro ms seen r _ h x hx
    by_cases hm : ms = []
    · subst hm
      simp only [topSort, if_true, Option.some.injEq] at h
      subst h
      simp at hx
    · simp [topSort, hm] at h
  | succ k ih =>
    intro ms seen r hms h
    exact sortEach_mem hch ih ms seen r hms h

theorem find_nodup {ms : List (Module N E)} (hd : (ms.map (·.name)).Nodup) {m : Module N E}
    (hm : m ∈ ms) : lookup ms m.name = some m := by
  have hd' : (ms.reverse.map (·.name)).Nodup := by
    rw [List.map_reverse]
    exact (List.reverse_perm _).nodup_iff.2 hd
  have hm' : m ∈ ms.reverse := List.mem_reverse.2 hm
  unfold lookup
  generalize ms.reverse = l at hd' hm'
  induction l with
  | nil => simp at hm'
  | cons a l ih =>
    rw [List.map_cons, List.nodup_cons] at hd'
    rcases List.mem_cons.1 hm' with h | h
    · subst h
      simp [List.find?]
    · have hne : a.name ≠ m.name := by
        intro e
        exact hd'.1 (e ▸ List.mem_map_of_mem h)
      simp only [List.find?, hne, decide_false]
      exact ih hd'.2 h

theorem lookup_some {ms : List (Module N E)} {n : N} {m : Module N E} (h : lookup ms n = some m) :
    m ∈ ms ∧ m.name = n := by
  have h1 := List.mem_of_find?_eq_some h
  have h2 := List.find?_some h
  exact ⟨List.mem_reverse.1 h1, by simpa using h2⟩

omit [DecidableEq N] in
/-- The modules with the given names. -/
theorem order_exists {ms : List (Module N E)} (l : List N)
    (hl : ∀ n ∈ l, n ∈ ms.map (·.name)) :
    ∃ order : List (Module N E), order.map (·.name) = l ∧ (∀ m ∈ order, m ∈ ms) := by
  induction l with
  | nil => exact ⟨[], rfl, by simp⟩
  | cons n l ih =>
    obtain ⟨o, ho, hm⟩ := ih (fun x hx => hl x (by simp [hx]))
    obtain ⟨m, hmm, hmn⟩ := List.mem_map.1 (hl n (by simp))
    exact ⟨m :: o, by simp [ho, hmn], by
      intro x hx
      rcases List.mem_cons.1 hx with h | h
      · subst h; exact hmm
      · exact hm x h⟩

theorem runScripts_eq (k : Kind) {ms : List (Module N E)} (hd : (ms.map (·.name)).Nodup)
    (order : List (Module N E)) (ho : ∀ m ∈ order, m ∈ ms) (e : E) :
    runScripts k ms (order.map (·.name)) e = runAll k order e := by
  induction order generalizing e with
  | nil => rfl
  | cons m o ih =>
    have hl := find_nodup hd (ho m (by simp))
    have ih' := ih (fun x hx => ho x (by simp [hx]))
    simp only [List.map_cons, runScripts, runAll, hl, Option.bind_some, Module.run]
    cases hs : m.script k with
    | none => simp [ih']
    | some f =>
      simp only []
      congr 1
      funext e'
      exact ih' e'

omit [DecidableEq N] in
theorem perm_of_nodup {l1 l2 : List (Module N E)} (h1 : (l1.map (·.name)).Nodup)
    (h2 : (l2.map (·.name)).Nodup) (h : ∀ m, m ∈ l1 ↔ m ∈ l2) : l1.Perm l2 := by
  have n1 : l1.Nodup := by
    have := List.pairwise_map.1 h1
    exact this.imp (fun hab e => hab (by rw [e]))
  have n2 : l2.Nodup := by
    have := List.pairwise_map.1 h2
    exact this.imp (fun hab e => hab (by rw [e]))
  exact (List.perm_ext_iff_of_nodup n1 n2).2 h

theorem sorted_exists {ms : List (Module N E)} (hp : Proper ms) :
    ∃ depth₀ order, GoodOrder ms order ∧ ∀ depth, depth₀ ≤ depth →
      topSort (children ms) depth (roots ms) [] =
        some (order.map (·.name), order.map (·.name)) := by
  obtain ⟨rank, hrank⟩ := hp.acyclic
  have hch : ∀ n, ∀ d ∈ children ms n, rank d < rank n := by
    intro n d hd
    unfold children at hd
    cases h : lookup ms n with
    | none => simp [h] at hd
    | some m =>
      simp only [h] at hd
      obtain ⟨h1, h2⟩ := lookup_some h
      rw [← h2]
      exact hrank m h1 d hd
  have hbound : ∃ k, ∀ n ∈ ms.map (·.name), rank n < k := by
    generalize ms.map (·.name) = l
    induction l with
    | nil => exact ⟨0, by simp⟩
    | cons a l ih =>
      obtain ⟨k, hk⟩ := ih
      refine ⟨max k (rank a + 1), ?_⟩
      intro n hn
      rcases List.mem_cons.1 hn with h | h
      · subst h; omega
      · have := hk n h; omega
  obtain ⟨k, hk⟩ := hbound
  have hroots : ∀ n ∈ roots ms, n ∈ ms.map (·.name) := fun n hn => (List.mem_filter.1 hn).1
  obtain ⟨⟨r, s⟩, hr, hok⟩ := topSort_ok (children ms) rank hch k (roots ms)
    (fun m hm => hk m (hroots m hm)) [] (Ordered.nil _)
  have hrs : s = r := by simpa using hok.eq
  subst hrs
  have hmem : ∀ n ∈ s, n ∈ ms.map (·.name) := by
    refine topSort_mem (P := fun n => n ∈ ms.map (·.name)) ?_ k (roots ms) [] _ hroots hr
    intro n _ d hd
    unfold children at hd
    cases h : lookup ms n with
    | none => simp [h] at hd
    | some m =>
      simp only [h] at hd
      exact hp.closed m (lookup_some h).1 d hd
  have hord : Ordered (children ms) s := hok.ordered
  have hrootin : ∀ n ∈ roots ms, n ∈ s := hok.all
  -- every module is reached
  have hall : ∀ j, ∀ m ∈ ms, k - rank m.name ≤ j → m.name ∈ s := by
    intro j
    induction j with
    | zero =>
      intro m hm hj
      have := hk m.name (List.mem_map_of_mem hm)
      omega
    | succ j ih =>
      intro m hm hj
      by_cases hpar : hasParent ms m.name = true
      · obtain ⟨p, hpm, hpd⟩ := List.any_eq_true.1 hpar
        have hpd' : m.name ∈ p.deps := by simpa using hpd
        have h1 := hrank p hpm m.name hpd'
        have h2 := hk m.name (List.mem_map_of_mem hm)
        have hin := ih p hpm (by omega)
        obtain ⟨a, b, hab⟩ := List.append_of_mem hin
        have hc : m.name ∈ children ms p.name := by
          unfold children
          rw [find_nodup hp.distinct hpm]
          exact hpd'
        have := hord.after a p.name b hab m.name hc
        rw [hab]
        simp [this]
      · refine hrootin m.name (List.mem_filter.2 ⟨List.mem_map_of_mem hm, ?_⟩)
        simpa using hpar
  obtain ⟨order, ho, hom⟩ := order_exists s hmem
  refine ⟨k, order, ⟨?_, ?_⟩, ?_⟩
  · refine perm_of_nodup (by rw [ho]; exact hord.nodup) hp.distinct ?_
    intro m
    refine ⟨hom m, ?_⟩
    intro hm
    have hin := hall _ m hm (Nat.le_refl _)
    rw [← ho] at hin
    obtain ⟨m', hm', hn⟩ := List.mem_map.1 hin
    have e1 := find_nodup hp.distinct hm
    have e2 := find_nodup hp.distinct (hom m' hm')
    rw [hn] at e2
    rw [e1] at e2
    have := Option.some.inj e2
    rw [this]
    exact hm'
  · intro before m rest e d hd
    have hmm : m ∈ ms := hom m (by rw [e]; simp)
    have e' : s = before.map (·.name) ++ m.name :: rest.map (·.name) := by
      rw [← ho, e]; simp
    have hc : d ∈ children ms m.name := by
      unfold children
      rw [find_nodup hp.distinct hmm]
      exact hd
    have := hord.after _ _ _ e' d hc
    obtain ⟨m', h1, h2⟩ := List.mem_map.1 this
    exact ⟨m', h1, h2⟩
  · intro depth hdep
    rw [ho]
    exact topSort_mono hdep hr

end Verif.EnvSetup
