import Verif.Exported.Lem

namespace Verif.Exported

variable {ms : List Mod} {direct : List Nat}

theorem filter_length_mono {α : Type} (p q : α → Bool) (l : List α) (hpq : ∀ x ∈ l, p x = true → q x = true) :
    (l.filter p).length ≤ (l.filter q).length := by
  induction l with
  | nil => simp
  | cons a l ih =>
    have := ih (fun x hx => hpq x (List.mem_cons_of_mem _ hx))
    have ha := hpq a (by simp)
    simp only [List.filter_cons]
    cases hp : p a <;> cases hq : q a <;> simp_all <;> omega

theorem filter_length_lt {α : Type} (p q : α → Bool) (l : List α) (hpq : ∀ x ∈ l, p x = true → q x = true)
    (a : α) (ha : a ∈ l) (h1 : p a = false) (h2 : q a = true) :
    (l.filter p).length < (l.filter q).length := by
  induction l with
  | nil => cases ha
  | cons b l ih =>
    simp only [List.filter_cons]
    rcases List.mem_cons.mp ha with e | e
    · subst e
      have := filter_length_mono p q l (fun x hx => hpq x (List.mem_cons_of_mem _ hx))
      simp [h1, h2]; omega
    · have := ih (fun x hx => hpq x (List.mem_cons_of_mem _ hx)) e
      have hb := hpq b (by simp)
      cases hp : p b <;> cases hq : q b <;> simp_all <;> omega

/-- How many modules are not among the names yet. -/
def cnt (ms : List Mod) (acc : List (List Str)) : Nat := (ms.filter (fun m => m.name ∉ acc)).length

theorem cnt_mono {a b : List (List Str)} (h : ∀ x ∈ a, x ∈ b) : cnt ms b ≤ cnt ms a := by
  unfold cnt
  apply filter_length_mono
  intro x _ hx
  simp only [decide_eq_true_eq] at hx ⊢
  exact fun h' => hx (h _ h')

theorem cnt_add {a : List (List Str)} {m : Mod} (hm : m ∈ ms) (hn : m.name ∉ a) :
    cnt ms (a ++ [m.name]) < cnt ms a := by
  unfold cnt
  apply filter_length_lt (a := m)
  · intro x _ hx
    simp only [decide_eq_true_eq, List.mem_append, not_or] at hx ⊢
    exact hx.1
  · exact hm
  · simp
  · simpa using hn

/-- What a part of the collection does. -/
def Inv (ms : List Mod) (direct : List Nat) (a b : List (List Str)) : Prop :=
  ∃ w, b = a ++ w ∧ w.Nodup ∧ (∀ x ∈ w, x ∉ a) ∧
    ∀ x ∈ w, ∃ i m, ms[i]? = some m ∧ m.name = x ∧ Needs ms direct i ∧
      ∀ j ∈ m.subs, Counts ms j → ∀ n, Named ms j n → n ∈ b

theorem inv_refl (a : List (List Str)) : Inv ms direct a a := ⟨[], by simp, by simp, by simp, by simp⟩

theorem inv_sub {a b : List (List Str)} (h : Inv ms direct a b) : ∀ x ∈ a, x ∈ b := by
  obtain ⟨w, e, _⟩ := h
  intro x hx; rw [e]; exact List.mem_append_left _ hx

theorem inv_trans {a b c : List (List Str)} (h : Inv ms direct a b) (k : Inv ms direct b c) :
    Inv ms direct a c := by
  have hs := inv_sub k
  obtain ⟨w, e, n, d, p⟩ := h
  obtain ⟨v, e', n', d', p'⟩ := k
  refine ⟨w ++ v, by rw [e', e, List.append_assoc], ?_, ?_, ?_⟩
  · rw [List.nodup_append]
    refine ⟨n, n', ?_⟩
    intro x hx y hy exy
    exact d' y hy (by rw [e, ← exy]; exact List.mem_append_right _ hx)
  · intro x hx
    rcases List.mem_append.mp hx with hx | hx
    · exact d x hx
    · exact fun h' => d' x hx (by rw [e]; exact List.mem_append_left _ h')
  · intro x hx
    rcases List.mem_append.mp hx with hx | hx
    · obtain ⟨i, m, h1, h2, h3, h4⟩ := p x hx
      exact ⟨i, m, h1, h2, h3, fun j hj hc nn hn => hs _ (h4 j hj hc nn hn)⟩
    · exact p' x hx

theorem fold_inv (f : List (List Str) → Nat → List (List Str)) (P : Nat → Prop) :
    ∀ (l : List Nat) (a : List (List Str)),
    (∀ b, (∀ x ∈ a, x ∈ b) → ∀ i ∈ l, Inv ms direct b (f b i) ∧
      (Counts ms i → ∀ n, Named ms i n → n ∈ f b i)) →
    Inv ms direct a (l.foldl f a) ∧
      ∀ i ∈ l, Counts ms i → ∀ n, Named ms i n → n ∈ l.foldl f a := by
  intro l
  induction l with
  | nil => intro a _; exact ⟨inv_refl a, by simp⟩
  | cons i l ih =>
    intro a h
    obtain ⟨h1, h2⟩ := h a (fun _ hx => hx) i (by simp)
    obtain ⟨h3, h4⟩ := ih (f a i) (fun b hb j hj =>
      h b (fun x hx => hb x (inv_sub h1 x hx)) j (List.mem_cons_of_mem _ hj))
    refine ⟨inv_trans h1 h3, ?_⟩
    intro j hj hc n hn
    rcases List.mem_cons.mp hj with e | hj
    · subst e
      exact inv_sub h3 _ (h2 hc n hn)
    · exact h4 j hj hc n hn

theorem collect_inv : ∀ (f : Nat) (a : List (List Str)) (i : Nat), cnt ms a < f →
    (Counts ms i → Needs ms direct i) →
    Inv ms direct a (collectMod ms f a i) ∧
      (Counts ms i → ∀ n, Named ms i n → n ∈ collectMod ms f a i) := by
  intro f
  induction f with
  | zero => intro a i h; omega
  | succ f ih =>
    intro a i hf hi
    cases hm : ms[i]? with
    | none =>
      simp only [collectMod, hm]
      refine ⟨inv_refl a, ?_⟩
      rintro ⟨m, h, _⟩
      rw [hm] at h; cases h
    | some m =>
      have hname : ∀ n, Named ms i n → n = m.name := by
        rintro n ⟨m', h, rfl⟩
        rw [hm] at h; cases h; rfl
      have hcount : Counts ms i → m.present = true ∧ m.product = false ∧ m.name.head? ≠ some sQbs ∧
          m.broken = false := by
        rintro ⟨m', h, r⟩
        rw [hm] at h; cases h; exact r
      simp only [collectMod, hm]
      by_cases c1 : m.present = false
      · rw [if_pos c1]
        refine ⟨inv_refl a, fun hc => ?_⟩
        have := (hcount hc).1
        rw [c1] at this; cases this
      · rw [if_neg c1]
        by_cases c2 : m.product = true ∨ m.name.head? = some sQbs
        · rw [if_pos c2]
          refine ⟨inv_refl a, fun hc => ?_⟩
          have h1 := (hcount hc).2.1
          have h2 := (hcount hc).2.2.1
          rcases c2 with c2 | c2
          · rw [h1] at c2; cases c2
          · exact absurd c2 h2
        · rw [if_neg c2]
          rw [not_or] at c2
          by_cases c3 : m.name ∈ a
          · rw [if_pos c3]
            refine ⟨inv_refl a, fun _ n hn => ?_⟩
            rw [hname n hn]; exact c3
          · rw [if_neg c3]
            by_cases c4 : m.broken = true
            · rw [if_pos c4]
              refine ⟨inv_refl a, fun hc => ?_⟩
              have := (hcount hc).2.2.2
              rw [c4] at this; cases this
            · rw [if_neg c4]
              have hc : Counts ms i := ⟨m, hm, by simpa using c1, by simpa using c2.1, c2.2,
                by simpa using c4⟩
              have hneed := hi hc
              have hmem : m ∈ ms := List.mem_of_getElem? hm
              have hlt := cnt_add (a := a) hmem c3
              obtain ⟨h1, h2⟩ := fold_inv (ms := ms) (direct := direct) (collectMod ms f)
                (fun _ => True) m.subs (a ++ [m.name])
                (fun b hb j hj => ih b j (by have := cnt_mono (ms := ms) hb; omega)
                  (fun hcj => .sub hneed hm hj hcj))
              have hsub := inv_sub h1
              refine ⟨?_, fun _ n hn => by rw [hname n hn]; exact hsub _ (by simp)⟩
              obtain ⟨w, e, n, d, p⟩ := h1
              refine ⟨m.name :: w, by rw [e]; simp, ?_, ?_, ?_⟩
              · rw [List.nodup_cons]
                exact ⟨fun h => d _ h (by simp), n⟩
              · intro x hx
                rcases List.mem_cons.mp hx with hx | hx
                · rw [hx]; exact c3
                · exact fun h' => d x hx (List.mem_append_left _ h')
              · intro x hx
                rcases List.mem_cons.mp hx with hx | hx
                · exact ⟨i, m, hm, hx.symm, hneed, fun j hj hcj nn hn => h2 j hj hcj nn hn⟩
                · exact p x hx

theorem moduleDeps_inv : Inv ms direct [] (moduleDeps ms direct) ∧
    ∀ i ∈ direct, Counts ms i → ∀ n, Named ms i n → n ∈ moduleDeps ms direct :=
  fold_inv _ (fun _ => True) direct [] (fun b _ i hi =>
    collect_inv _ b i (by have : cnt ms b ≤ ms.length := List.length_filter_le _ _
                          omega) (fun hc => .direct hi hc))

/-! Sorting. -/

theorem insertUnique_mem (s : Str) (l : List Str) (x : Str) : x ∈ insertUnique s l ↔ x = s ∨ x ∈ l := by
  induction l with
  | nil => simp [insertUnique]
  | cons t l ih =>
    simp only [insertUnique]
    split
    · simp
    · simp only [List.mem_cons, ih]
      constructor
      · rintro (h | h | h)
        · exact .inr (.inl h)
        · exact .inl h
        · exact .inr (.inr h)
      · rintro (h | h | h)
        · exact .inr (.inl h)
        · exact .inl h
        · exact .inr (.inr h)

theorem insertUnique_sorted (s : Str) (l : List Str) (h : l.Pairwise (fun a b => strLt a b = true))
    (hs : s ∉ l) : (insertUnique s l).Pairwise (fun a b => strLt a b = true) := by
  induction l with
  | nil => simp [insertUnique]
  | cons t l ih =>
    rw [List.pairwise_cons] at h
    simp only [insertUnique]
    split
    · rename_i hlt
      rw [List.pairwise_cons, List.pairwise_cons]
      refine ⟨?_, h⟩
      intro x hx
      rcases List.mem_cons.mp hx with e | hx
      · rw [e]; exact hlt
      · exact strLt_trans hlt (h.1 x hx)
    · rename_i hlt
      rw [List.pairwise_cons]
      refine ⟨?_, ih h.2 (fun h' => hs (List.mem_cons_of_mem _ h'))⟩
      intro x hx
      rw [insertUnique_mem] at hx
      rcases hx with e | hx
      · rw [e]
        exact strLt_total s t (fun e => hs (by rw [e]; simp)) (by simpa using hlt)
      · exact h.1 x hx

theorem sortStrs_ok (l : List Str) (h : l.Nodup) :
    (sortStrs l).Pairwise (fun a b => strLt a b = true) ∧ ∀ x, x ∈ sortStrs l ↔ x ∈ l := by
  induction l with
  | nil => simp [sortStrs]
  | cons a l ih =>
    rw [List.nodup_cons] at h
    obtain ⟨h1, h2⟩ := ih h.2
    have e : sortStrs (a :: l) = insertUnique a (sortStrs l) := rfl
    rw [e]
    refine ⟨insertUnique_sorted a _ h1 (fun h' => h.1 ((h2 a).mp h')), ?_⟩
    intro x
    rw [insertUnique_mem, h2, List.mem_cons]

theorem uniq_ok (l : List PDep) : ∀ (acc : List Str), acc.Nodup →
    (l.foldl (fun acc d => if d.product ∈ acc then acc else acc ++ [d.product]) acc).Nodup ∧
    ∀ x, x ∈ l.foldl (fun acc d => if d.product ∈ acc then acc else acc ++ [d.product]) acc ↔
      x ∈ acc ∨ ∃ d ∈ l, d.product = x := by
  induction l with
  | nil => intro acc h; simp [h]
  | cons d l ih =>
    intro acc h
    simp only [List.foldl_cons]
    by_cases c : d.product ∈ acc
    · rw [if_pos c]
      obtain ⟨h1, h2⟩ := ih acc h
      refine ⟨h1, ?_⟩
      intro x
      rw [h2]
      constructor
      · rintro (h | ⟨e, h, he⟩)
        · exact .inl h
        · exact .inr ⟨e, List.mem_cons_of_mem _ h, he⟩
      · rintro (h | ⟨e, h, he⟩)
        · exact .inl h
        · rcases List.mem_cons.mp h with h | h
          · subst h; rw [← he]; exact .inl c
          · exact .inr ⟨e, h, he⟩
    · rw [if_neg c]
      obtain ⟨h1, h2⟩ := ih (acc ++ [d.product]) (by
        rw [List.nodup_append]
        refine ⟨h, by simp, ?_⟩
        intro x hx y hy e
        rw [List.mem_singleton] at hy
        exact c (by rw [← hy, ← e]; exact hx))
      refine ⟨h1, ?_⟩
      intro x
      rw [h2, List.mem_append, List.mem_singleton]
      constructor
      · rintro ((h | h) | ⟨e, h, he⟩)
        · exact .inl h
        · exact .inr ⟨d, by simp, h.symm⟩
        · exact .inr ⟨e, List.mem_cons_of_mem _ h, he⟩
      · rintro (h | ⟨e, h, he⟩)
        · exact .inl (.inl h)
        · rcases List.mem_cons.mp h with h | h
          · subst h; exact .inl (.inr he.symm)
          · exact .inr ⟨e, h, he⟩

/-! Parameters. -/

theorem mem_paramInsert (k : Str) (v : Params) (m : List (Str × Params)) (p : Str × Params)
    (h : p ∈ paramInsert k v m) : p = (k, v) ∨ p ∈ m := by
  induction m with
  | nil => simpa [paramInsert] using h
  | cons e m ih =>
    obtain ⟨k', v'⟩ := e
    simp only [paramInsert] at h
    split at h
    · rcases List.mem_cons.mp h with h | h
      · exact .inl h
      · exact .inr (List.mem_cons_of_mem _ h)
    · rcases List.mem_cons.mp h with h | h
      · exact .inr (by rw [h]; simp)
      · rcases ih h with h | h
        · exact .inl h
        · exact .inr (List.mem_cons_of_mem _ h)

theorem paramInsert_self (k : Str) (v : Params) (m : List (Str × Params)) : (k, v) ∈ paramInsert k v m := by
  induction m with
  | nil => simp [paramInsert]
  | cons e m ih =>
    obtain ⟨k', v'⟩ := e
    simp only [paramInsert]
    split
    · simp
    · exact List.mem_cons_of_mem _ ih

theorem paramInsert_other (k : Str) (v : Params) (m : List (Str × Params)) (p : Str × Params) (hp : p ∈ m)
    (h2 : p.2 = v) : p ∈ paramInsert k v m := by
  induction m with
  | nil => cases hp
  | cons e m ih =>
    obtain ⟨k', v'⟩ := e
    simp only [paramInsert]
    split
    · rename_i e
      rcases List.mem_cons.mp hp with hp | hp
      · subst hp
        simp only at h2
        simp [e, h2]
      · exact List.mem_cons_of_mem _ hp
    · rcases List.mem_cons.mp hp with hp | hp
      · rw [hp]; simp
      · exact List.mem_cons_of_mem _ (ih hp)

theorem params_fold (v : Params) (hv : v ≠ []) (l : List PDep) : ∀ (m : List (Str × Params)),
    (∀ p ∈ m, p.2 = v) →
    ∀ p, p ∈ l.foldl (fun m d => if v = [] then m else paramInsert d.product v m) m ↔
      p ∈ m ∨ (p.2 = v ∧ ∃ d ∈ l, d.product = p.1) := by
  induction l with
  | nil => intro m _ p; simp
  | cons d l ih =>
    intro m hm p
    simp only [List.foldl_cons, if_neg hv]
    have ih' := ih (paramInsert d.product v m) (by
      intro q hq
      rcases mem_paramInsert _ _ _ _ hq with e | h
      · rw [e]
      · exact hm q h) p
    simp only [if_neg hv] at ih'
    rw [ih']
    constructor
    · rintro (h | ⟨h, e, he, h'⟩)
      · rcases mem_paramInsert _ _ _ _ h with e | h
        · exact .inr (by rw [e]; exact ⟨rfl, d, by simp, rfl⟩)
        · exact .inl h
      · exact .inr ⟨h, e, List.mem_cons_of_mem _ he, h'⟩
    · rintro (h | ⟨h, e, he, h'⟩)
      · exact .inl (paramInsert_other _ _ _ _ h (hm p h))
      · rcases List.mem_cons.mp he with he | he
        · subst he
          left
          have : p = (e.product, v) := by
            obtain ⟨p1, p2⟩ := p
            simp only at h h'
            rw [h, h']
          rw [this]
          exact paramInsert_self _ _ _
        · exact .inr ⟨h, e, he, h'⟩

end Verif.Exported
