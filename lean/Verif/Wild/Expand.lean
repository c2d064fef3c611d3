import Verif.Wild.Lem
/-!
# C55: expansion of one pattern
-/
namespace Verif.Wild

theorem mem_found {env : Env} {part : Name} {fl : Filters} {rec : Bool} {base d : Path} {n : Name} {i : Info} :
    (d, n, i) ∈ found env part fl rec base ↔
    (if rec then Reach env fl.hidden base d else d = base) ∧ (n, i) ∈ listed env fl d ∧ passes env fl part (n, i) = true := by
  unfold found
  simp only [List.mem_flatMap, List.mem_map, List.mem_filter, Prod.mk.injEq]
  constructor
  · rintro ⟨d', hd, ⟨n', i'⟩, ⟨h1, h2⟩, rfl, h3⟩
    simp only [Prod.mk.injEq] at h3
    obtain ⟨rfl, rfl⟩ := h3
    refine ⟨?_, h1, h2⟩
    cases rec with
    | true => exact (mem_visited _ _ _ (Nat.le_refl _)).1 hd
    | false => simpa using hd
  · rintro ⟨h0, h1, h2⟩
    refine ⟨d, ?_, (n, i), ⟨h1, h2⟩, rfl, rfl⟩
    cases rec with
    | true => exact (mem_visited _ _ _ (Nat.le_refl _)).2 h0
    | false => simpa using h0

theorem denotes_empty {env : Env} {base : Path} {parts : List Name} {raw : Path} (h : Denotes env base parts raw) :
    (∀ q, env.fs.entries (base ++ q) = []) → False := by
  induction h with
  | file _ h1 => intro h; have := h []; simp at this; rw [this] at h1; cases h1
  | dir _ _ h1 => intro h; have := h []; simp at this; rw [this] at h1; cases h1
  | dots _ _ _ ih => intro h; exact ih (fun q => by rw [List.append_assoc]; exact h _)
  | here _ _ ih => exact ih
  | down h1 => intro h; have := h []; simp at this; rw [this] at h1; cases h1
  | all _ ih => exact ih

theorem denotes_last {env : Env} {d : Path} {part : Name} {raw : Path} (hp : part ≠ starStar) :
    Denotes env d [part] raw ↔ ∃ n i, (n, i) ∈ env.fs.entries d ∧ env.glob part n = true ∧ hidden n = false ∧
      (i.isDir = true → i.isLink = true) ∧ raw = d ++ [n] := by
  constructor
  · intro h
    cases h with
    | file _ h1 h2 h3 h4 => exact ⟨_, _, h1, h2, h3, h4, rfl⟩
    | dir _ h => exact absurd rfl h
    | dots _ h => exact absurd rfl h
    | here h => exact absurd rfl h
    | down => exact absurd rfl hp
    | all => exact absurd rfl hp
  · rintro ⟨n, i, h1, h2, h3, h4, rfl⟩
    exact .file hp h1 h2 h3 h4

theorem denotes_more {env : Env} {d : Path} {part : Name} {rest : List Name} {raw : Path} (hp : part ≠ starStar)
    (hr : rest ≠ []) : Denotes env d (part :: rest) raw ↔
    (∃ n i, (n, i) ∈ env.fs.entries d ∧ env.glob part n = true ∧ (hidden n = true → isPattern part = false) ∧
      i.isDir = true ∧ Denotes env (d ++ [n]) rest raw) ∨
    ((part = dot ∨ part = dotDot) ∧ Denotes env (d ++ [part]) rest raw) := by
  constructor
  · intro h
    cases h with
    | file => exact absurd rfl hr
    | dir _ _ h1 h2 h3 h4 h5 => exact .inl ⟨_, _, h1, h2, h3, h4, h5⟩
    | dots h1 _ h2 => exact .inr ⟨h1, h2⟩
    | here => exact absurd rfl hp
    | down => exact absurd rfl hp
    | all => exact absurd rfl hp
  · rintro (⟨n, i, h1, h2, h3, h4, h5⟩ | ⟨h1, h2⟩)
    · exact .dir hp hr h1 h2 h3 h4 h5
    · exact .dots h1 hr h2

theorem mapM_some {α β : Type} {g : α → Option (List β)} : ∀ (l : List α), (∀ a ∈ l, ∃ r, g a = some r) →
    ∃ rs, l.mapM g = some rs ∧ ∀ x, x ∈ rs.flatten ↔ ∃ a ∈ l, ∃ r, g a = some r ∧ x ∈ r := by
  intro l
  induction l with
  | nil => intro _; exact ⟨[], rfl, by simp⟩
  | cons a l ih =>
    intro h
    obtain ⟨r, hr⟩ := h a (by simp)
    obtain ⟨rs, hrs, hm⟩ := ih (fun b hb => h b (by simp [hb]))
    refine ⟨r :: rs, by simp [List.mapM_cons, hr, hrs], ?_⟩
    intro x
    simp only [List.flatten_cons, List.mem_append, hm, List.mem_cons, exists_eq_or_imp, hr, Option.some.injEq,
      exists_eq_left']

theorem hidden_dot : hidden dot = true ∧ hidden dotDot = true ∧ dot ≠ dotDot ∧ dot ≠ starStar ∧ dotDot ≠ starStar ∧
    isPattern dot = false ∧ isPattern dotDot = false := by decide

theorem mem_expandParts {env : Env} (hs : env.Sane) {bd : Path} : ∀ (n : Nat) (parts : List Name) (base : Path),
    parts ≠ [] → parts.length ≤ n → ∃ l, expandParts env bd n parts base = some l ∧
    ∀ f, f ∈ l ↔ ∃ raw, Denotes env base parts raw ∧ startsWith raw.dropLast bd = false ∧ f = clean raw := by
  intro n
  induction n with
  | zero => intro parts base h1 h2; exact absurd (List.eq_nil_of_length_eq_zero (by omega)) h1
  | succ n ih =>
    intro parts base h1 h2
    cases parts with
    | nil => exact absurd rfl h1
    | cons part rest =>
      unfold expandParts
      by_cases hb : startsWith base bd = true
      · refine ⟨[], by rw [if_pos hb], ?_⟩
        intro f
        simp only [List.not_mem_nil, false_iff, not_exists, not_and]
        intro raw hd hsw
        obtain ⟨t, ht, rfl⟩ := denotes_ext hd
        rw [dropLast_append_ne _ _ ht, startsWith_append hb] at hsw
        cases hsw
      rw [if_neg hb]
      have hD := fun raw => denotes_takePart (env := env) (raw := raw) rest part base
      simp only [hD]
      clear hD
      have hlen := takePart_length part rest
      have hne := takePart_ne part rest
      generalize takePart part rest = t at hlen hne ⊢
      obtain ⟨rec, p, rest'⟩ := t
      simp only at hlen hne ⊢
      cases hr : rest' with
      | nil =>
        simp only [List.isEmpty_nil, Bool.not_true, Bool.false_eq_true, if_false, Option.some.injEq, exists_eq_left']
        intro f
        simp only [List.mem_map, List.mem_filter, Prod.exists, mem_found]
        constructor
        · rintro ⟨d, m, i, ⟨⟨⟨hd, hl, hp⟩, hsw⟩, hdir⟩, rfl⟩
          have hdots : (filtersFor p false).dirs = false ∧ (filtersFor p false).hidden = false := by simp [filtersFor]
          simp only [passes, hdots, Bool.false_or, Bool.not_false, Bool.true_or, Bool.and_true, Bool.false_and,
            Bool.and_eq_true, Bool.or_eq_true, decide_eq_true_eq] at hp
          have hmem : (m, i) ∈ env.fs.entries d := by
            unfold listed at hl
            rw [List.mem_append] at hl
            rcases hl with hl | hl
            · exfalso
              split at hl
              · simp only [List.mem_cons, Prod.mk.injEq, List.not_mem_nil, or_false] at hl
                rcases hl with ⟨rfl, rfl⟩ | ⟨rfl, rfl⟩ <;> simp [dirInfo] at hdir
              · cases hl
            · exact hl
          have hn := hs.names _ _ _ hmem
          refine ⟨d ++ [m], ⟨d, hd, (denotes_last hne).2 ⟨m, i, hmem, hp.1, ?_, ?_, rfl⟩⟩, ?_, rfl⟩
          · rcases hp.2 with (h | h) | h
            · exact absurd h hn.1
            · exact absurd h hn.2
            · simpa using h
          · intro hi
            simpa [hi] using hdir
          · simpa using hsw
        · rintro ⟨raw, ⟨d, hd, hden⟩, hsw, rfl⟩
          obtain ⟨m, i, hmem, hg, hh, hdir, rfl⟩ := (denotes_last hne).1 hden
          refine ⟨d, m, i, ⟨⟨⟨hd, ?_, ?_⟩, ?_⟩, ?_⟩, rfl⟩
          · unfold listed
            exact List.mem_append_right _ hmem
          · simp [passes, hg, hh, filtersFor]
          · simpa using hsw
          · cases hi : i.isDir
            · simp
            · simp [hdir hi]
      | cons r1 rs =>
        simp only [List.isEmpty_cons, Bool.not_false, if_true]
        rw [← hr]
        have hrne : rest' ≠ [] := by rw [hr]; simp
        have hlen' : rest'.length ≤ n := by simp at h2; omega
        obtain ⟨ls, hls, hmem⟩ := mapM_some
          (g := fun h : Path × Name × Info => expandParts env bd n rest' (h.1 ++ [h.2.1]))
          ((found env p (filtersFor p true) rec base).filter (fun h => !startsWith h.1 bd))
          (fun h _ => (ih rest' (h.1 ++ [h.2.1]) hrne hlen').imp (fun _ hx => hx.1))
        rw [hls]
        refine ⟨_, rfl, ?_⟩
        intro f
        simp only [hmem, List.mem_filter, Prod.exists, mem_found]
        constructor
        · rintro ⟨d, m, i, ⟨⟨hd, hl, hp⟩, hsw⟩, r, hr, hf⟩
          obtain ⟨r', hr', hm'⟩ := ih rest' (d ++ [m]) hrne hlen'
          rw [hr'] at hr
          simp only [Option.some.injEq] at hr
          subst hr
          obtain ⟨raw, hden, hsw', rfl⟩ := (hm' f).1 hf
          refine ⟨raw, ⟨d, hd, ?_⟩, hsw', rfl⟩
          rw [denotes_more hne hrne]
          simp only [passes, Bool.and_eq_true, Bool.or_eq_true, decide_eq_true_eq] at hp
          unfold listed at hl
          rw [List.mem_append] at hl
          rcases hl with hl | hl
          · right
            by_cases hd' : (filtersFor p true).dots = true
            · rw [if_pos hd'] at hl
              have hpd : p = dotDot ∨ p = dot := by simpa [filtersFor] using hd'
              have hlit : isPattern p = false := by
                rcases hpd with rfl | rfl
                · exact hidden_dot.2.2.2.2.2.2
                · exact hidden_dot.2.2.2.2.2.1
              have hmp : m = p := (hs.literal p m hlit).1 hp.1.1.1
              rw [hmp] at hden
              exact ⟨hpd.symm, hden⟩
            · rw [if_neg hd'] at hl; cases hl
          · left
            have hn := hs.names _ _ _ hl
            refine ⟨m, i, hl, hp.1.1.1, ?_, ?_, hden⟩
            · intro hh
              rcases hp.1.1.2 with ((h | h) | h) | h
              · simpa [filtersFor] using h
              · exact absurd h hn.1
              · exact absurd h hn.2
              · rw [hh] at h; cases h
            · cases hi : i.isDir with
              | true => rfl
              | false =>
                exfalso
                exact denotes_empty hden (fun q => by
                  rw [List.append_assoc]
                  exact env.fs.inDirs _ _ _ hl hi q)
        · rintro ⟨raw, ⟨d, hd, hden⟩, hsw, rfl⟩
          have hkey : ∀ (m : Name), Denotes env (d ++ [m]) rest' raw → startsWith d bd = false ∧
              ∃ r, expandParts env bd n rest' (d ++ [m]) = some r ∧ clean raw ∈ r := by
            intro m hden'
            obtain ⟨r', hr', hm'⟩ := ih rest' (d ++ [m]) hrne hlen'
            refine ⟨?_, r', hr', (hm' _).2 ⟨raw, hden', hsw, rfl⟩⟩
            cases hx : startsWith d bd with
            | false => rfl
            | true =>
              obtain ⟨t, ht, rfl⟩ := denotes_ext hden'
              rw [dropLast_append_ne _ _ ht, List.append_assoc, startsWith_append hx] at hsw
              cases hsw
          rcases (denotes_more hne hrne).1 hden with ⟨m, i, h1, h2, h3, h4, h5⟩ | ⟨h1, h2⟩
          · obtain ⟨hk, r, hr, hf⟩ := hkey m h5
            refine ⟨d, m, i, ⟨⟨hd, ?_, ?_⟩, by simp [hk]⟩, r, hr, hf⟩
            · unfold listed
              exact List.mem_append_right _ h1
            · obtain ⟨hi1, hi2⟩ := hs.infos _ _ _ h1 h4
              simp only [passes, h2, h4, hi1, hi2, filtersFor]
              cases hh : hidden m with
              | false => simp
              | true => simp [h3 hh]
          · obtain ⟨hk, r, hr, hf⟩ := hkey p h2
            have hlit : isPattern p = false := by
              rcases h1 with rfl | rfl
              · exact hidden_dot.2.2.2.2.2.1
              · exact hidden_dot.2.2.2.2.2.2
            refine ⟨d, p, dirInfo, ⟨⟨hd, ?_, ?_⟩, by simp [hk]⟩, r, hr, hf⟩
            · unfold listed
              have : (filtersFor p true).dots = true := by rcases h1 with rfl | rfl <;> decide
              rw [if_pos this]
              apply List.mem_append_left
              rcases h1 with rfl | rfl <;> simp
            · have := (hs.literal p p hlit).2 rfl
              simp [passes, this, filtersFor, hlit, dirInfo]

end Verif.Wild
