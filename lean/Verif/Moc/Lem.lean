import Verif.Moc.Spec

namespace Verif.Moc

/-! ### Texts -/

theorem has_iff (pat s : Str) : has pat s = true ↔ pat <:+: s := by
  induction s with
  | nil => simp [has]
  | cons c l ih =>
    simp only [has, Bool.or_eq_true, ih, List.isPrefixOf_iff_prefix]
    rw [List.infix_cons_iff]

theorem prefix_comma {pat : Str} (hp : ',' ∉ pat) (a b : Str) :
    pat <+: (a ++ ',' :: b) ↔ pat <+: a := by
  induction pat generalizing a with
  | nil => simp
  | cons c pat ih =>
    have hc : c ≠ ',' := by intro h; subst h; simp at hp
    have hp' : ',' ∉ pat := fun h => hp (List.mem_cons_of_mem _ h)
    cases a with
    | nil => simp [List.cons_prefix_cons, hc]
    | cons d a => simp [List.cons_prefix_cons, ih hp']

theorem has_comma {pat : Str} (hp : ',' ∉ pat) (hne : pat ≠ []) (a b : Str) :
    has pat (a ++ ',' :: b) = (has pat a || has pat b) := by
  induction a with
  | nil =>
    have h1 : pat.isPrefixOf (',' :: b) = false := by
      cases pat with
      | nil => exact absurd rfl hne
      | cons c p =>
        have hc : c ≠ ',' := by intro h; subst h; simp at hp
        simp [List.isPrefixOf, hc]
    have h2 : pat.isPrefixOf ([] : Str) = false := by
      cases pat with
      | nil => exact absurd rfl hne
      | cons c p => rfl
    simp [has, h1, h2]
  | cons c a ih =>
    have h1 : pat.isPrefixOf (c :: (a ++ ',' :: b)) = pat.isPrefixOf (c :: a) := by
      rw [Bool.eq_iff_iff, List.isPrefixOf_iff_prefix, List.isPrefixOf_iff_prefix]
      exact prefix_comma hp (c :: a) b
    simp only [List.cons_append, has, h1, ih, Bool.or_assoc]

theorem has_join {pat : Str} (hp : ',' ∉ pat) (hne : pat ≠ []) (ts : List Str) :
    has pat (join ts) = true ↔ ∃ t ∈ ts, has pat t = true := by
  fun_induction join ts with
  | case1 =>
    cases pat with
    | nil => exact absurd rfl hne
    | cons c p => simp [has]
  | case2 t => simp
  | case3 t ts hne' ih => simp [has_comma hp hne, ih]

theorem replaceFrom_comma {pat rep : Str} (hp : ',' ∉ pat) (hne : pat ≠ []) (k : Nat) (a b : Str)
    (hk : k ≤ a.length) :
    replaceFrom pat rep k (a ++ ',' :: b) = replaceFrom pat rep k a ++ ',' :: replaceFrom pat rep 0 b := by
  induction a generalizing k with
  | nil =>
    have : k = 0 := by simpa using hk
    subst this
    have h1 : pat.isPrefixOf (',' :: b) = false := by
      cases pat with
      | nil => exact absurd rfl hne
      | cons c p =>
        have hc : c ≠ ',' := by intro h; subst h; simp at hp
        simp [List.isPrefixOf, hc]
    simp [replaceFrom, h1]
  | cons c a ih =>
    cases k with
    | succ k =>
      simp only [List.cons_append, replaceFrom]
      exact ih k (by simpa using hk)
    | zero =>
      have h1 : pat.isPrefixOf (c :: (a ++ ',' :: b)) = pat.isPrefixOf (c :: a) := by
        rw [Bool.eq_iff_iff, List.isPrefixOf_iff_prefix, List.isPrefixOf_iff_prefix]
        exact prefix_comma hp (c :: a) b
      simp only [List.cons_append, replaceFrom, h1]
      split
      · next h =>
        have hl := (List.isPrefixOf_iff_prefix.mp h).length_le
        rw [ih _ (by simp at hl; omega)]
        simp
      · rw [ih 0 (by simp)]; simp

theorem replace_join {pat rep : Str} (hp : ',' ∉ pat) (hne : pat ≠ []) (ts : List Str) :
    replace pat rep (join ts) = join (ts.map (replace pat rep)) := by
  fun_induction join ts with
  | case1 => rfl
  | case2 t => rfl
  | case3 t ts hne' ih =>
    rw [replace, replaceFrom_comma hp hne 0 t _ (by simp)]
    rw [replace] at ih
    rw [ih]
    cases ts with
    | nil => exact (hne' rfl).elim
    | cons u us => simp [join, replace]

theorem replace_none {pat rep : Str} {s : Str} (h : ¬ pat <:+: s) : replace pat rep s = s := by
  unfold replace
  induction s with
  | nil => rfl
  | cons c l ih =>
    rw [List.infix_cons_iff] at h
    have h1 : pat.isPrefixOf (c :: l) = false := by
      cases hb : pat.isPrefixOf (c :: l) with
      | false => rfl
      | true => exact absurd (Or.inl (List.isPrefixOf_iff_prefix.mp hb)) h
    simp only [replaceFrom, h1]
    rw [ih (fun h' => h (Or.inr h'))]
    simp

theorem splitFrom_plain {t : Str} (ht : ',' ∉ t) (acc : Str) : splitFrom acc t = [acc ++ t] := by
  induction t generalizing acc with
  | nil => simp [splitFrom]
  | cons c t ih =>
    have hc : c ≠ ',' := by intro h; subst h; simp at ht
    simp only [splitFrom, hc, if_false]
    rw [ih (fun h => ht (List.mem_cons_of_mem _ h))]
    simp

theorem splitFrom_comma {t : Str} (ht : ',' ∉ t) (acc l : Str) :
    splitFrom acc (t ++ ',' :: l) = (acc ++ t) :: splitFrom [] l := by
  induction t generalizing acc with
  | nil => simp [splitFrom]
  | cons c t ih =>
    have hc : c ≠ ',' := by intro h; subst h; simp at ht
    simp only [List.cons_append, splitFrom, hc, if_false]
    rw [ih (fun h => ht (List.mem_cons_of_mem _ h))]
    simp

theorem split_join {ts : List Str} (h : ∀ t ∈ ts, ',' ∉ t) {x : Str} (hx : x ≠ []) :
    x ∈ split (join ts) ↔ x ∈ ts := by
  unfold split
  fun_induction join ts with
  | case1 => simp [splitFrom, hx]
  | case2 t => rw [splitFrom_plain (h t (by simp))]; simp
  | case3 t ts hne ih =>
    rw [splitFrom_comma (h t (by simp))]
    simp [ih (fun u hu => h u (List.mem_cons_of_mem _ hu))]

/-! ### File names -/

theorem fileNameFrom_plain {n : Str} (hn : '/' ∉ n) (acc : Str) : fileNameFrom acc n = acc ++ n := by
  induction n generalizing acc with
  | nil => simp [fileNameFrom]
  | cons c n ih =>
    have hc : c ≠ '/' := by intro h; subst h; simp at hn
    simp only [fileNameFrom, hc, if_false]
    rw [ih (fun h => hn (List.mem_cons_of_mem _ h))]
    simp

theorem fileNameFrom_slash (d n acc : Str) (hn : '/' ∉ n) :
    fileNameFrom acc (d ++ '/' :: n) = n := by
  induction d generalizing acc with
  | nil => simp [fileNameFrom, fileNameFrom_plain hn]
  | cons c d ih =>
    simp only [List.cons_append, fileNameFrom]
    split <;> exact ih _

theorem fileName_of {p dir n : Str} (hd : dir = [] ∨ ∃ d, dir = d ++ ['/']) (hp : p = dir ++ n)
    (hn : '/' ∉ n) : fileName p = n := by
  subst hp
  rcases hd with rfl | ⟨d, rfl⟩
  · simp [fileName, fileNameFrom_plain hn]
  · simpa [fileName] using fileNameFrom_slash d n [] hn

theorem fileName_split (p : Str) :
    ∃ dir, (dir = [] ∨ ∃ d, dir = d ++ ['/']) ∧ p = dir ++ fileName p ∧ '/' ∉ fileName p := by
  unfold fileName
  suffices H : ∀ acc : Str, '/' ∉ acc → ∃ dir, (dir = [] ∨ ∃ d, dir = d ++ ['/']) ∧
      acc ++ p = dir ++ fileNameFrom acc p ∧ '/' ∉ fileNameFrom acc p by
    simpa using H [] (by simp)
  induction p with
  | nil => intro acc h; exact ⟨[], .inl rfl, by simp [fileNameFrom], by simpa [fileNameFrom] using h⟩
  | cons c p ih =>
    intro acc h
    by_cases hc : c = '/'
    · subst hc
      obtain ⟨dir, hd, he, hn⟩ := ih [] (by simp)
      simp only [fileNameFrom, if_true]
      refine ⟨acc ++ '/' :: dir, .inr ?_, ?_, hn⟩
      · rcases hd with rfl | ⟨d, rfl⟩
        · exact ⟨acc, by simp⟩
        · exact ⟨acc ++ '/' :: d, by simp⟩
      · simp at he; simp [← he]
    · simp only [fileNameFrom, hc, if_false]
      obtain ⟨dir, hd, he, hn⟩ := ih (acc ++ [c]) (by
        simp only [List.mem_append, List.mem_singleton]
        rintro (h' | h')
        · exact h h'
        · exact hc h'.symm)
      exact ⟨dir, hd, by simpa using he, hn⟩

theorem mocName_shape (n : Str) :
    (sMocPrefix.isPrefixOf n && sCppSuffix.isSuffixOf n) = true ↔
      ∃ b, n = sMocPrefix ++ b ++ sCppSuffix := by
  rw [Bool.and_eq_true, List.isPrefixOf_iff_prefix, List.isSuffixOf_iff_suffix]
  constructor
  · rintro ⟨⟨r, rfl⟩, ⟨q, hq⟩⟩
    match r with
    | [] =>
      have := congrArg List.reverse hq
      simp [sMocPrefix, sCppSuffix] at this
    | [a] =>
      have := congrArg List.reverse hq
      simp [sMocPrefix, sCppSuffix] at this
    | [a, b] =>
      have := congrArg List.reverse hq
      simp [sMocPrefix, sCppSuffix] at this
    | [a, b, c] =>
      have := congrArg List.reverse hq
      simp [sMocPrefix, sCppSuffix] at this
    | a :: b :: c :: d :: r =>
      have hl : q.length = r.length + 4 := by
        have := congrArg List.length hq
        simp [sMocPrefix, sCppSuffix] at this
        omega
      refine ⟨q.drop 4, ?_⟩
      have h4 : q.take 4 = sMocPrefix := by
        have := congrArg (List.take 4) hq
        rw [List.take_append_of_le_length (by omega)] at this
        rw [this]; rfl
      rw [← hq, ← h4, List.take_append_drop]
  · rintro ⟨b, rfl⟩
    exact ⟨⟨b ++ sCppSuffix, by simp⟩, ⟨sMocPrefix ++ b, rfl⟩⟩

theorem mocName_iff (p b : Str) : mocName p = some b ↔ fileName p = sMocPrefix ++ b ++ sCppSuffix := by
  unfold mocName
  simp only
  constructor
  · intro h
    split at h
    · next hs =>
      obtain ⟨b', hb'⟩ := (mocName_shape _).mp hs
      rw [hb'] at h ⊢
      simp [sMocPrefix, sCppSuffix] at h
      have : b' = b := by
        rw [← h]
      rw [this]
    · exact absurd h (by simp)
  · intro h
    rw [if_pos ((mocName_shape _).mpr ⟨b, h⟩), h]
    simp [sMocPrefix, sCppSuffix]

theorem included_iff (f : File) (b : Str) :
    b ∈ f.content.includes.filterMap mocName ↔ IncludesMoc f b := by
  simp only [List.mem_filterMap, mocName_iff, IncludesMoc]
  constructor
  · rintro ⟨p, hp, h⟩
    obtain ⟨dir, hd, he, hn⟩ := fileName_split p
    rw [h] at he hn
    refine ⟨p, hp, dir, hd, he, fun hb => hn ?_⟩
    simp [hb]
  · rintro ⟨p, hp, dir, hd, he, hb⟩
    exact ⟨p, hp, fileName_of hd he (by simp [sMocPrefix, sCppSuffix, hb])⟩

end Verif.Moc
