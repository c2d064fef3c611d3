import Verif.Wild.Spec
/-!
# C55: lemmas
-/
namespace Verif.Wild

/-- The directories that can be reached from a directory. -/
inductive Reach (env : Env) (hid : Bool) : Path → Path → Prop
  | refl (d : Path) : Reach env hid d d
  | step {d e : Path} {n : Name} {i : Info} : (n, i) ∈ env.fs.entries d → i.isDir = true → i.isLink = false →
      (hidden n = true → hid = true) → Reach env hid (d ++ [n]) e → Reach env hid d e

theorem descends_iff (f : Filters) (e : Name × Info) : descends f e = true ↔
    e.2.isDir = true ∧ e.2.isLink = false ∧ (hidden e.1 = true → f.hidden = true) := by
  unfold descends
  cases e.2.isDir <;> cases e.2.isLink <;> cases f.hidden <;> cases hidden e.1 <;> simp

theorem mem_visited {env : Env} {f : Filters} : ∀ (n : Nat) (p d : Path), env.fs.depth p ≤ n →
    (d ∈ visited env f n p ↔ Reach env f.hidden p d) := by
  intro n
  induction n with
  | zero =>
    intro p d h
    simp only [visited, List.mem_singleton]
    constructor
    · rintro rfl
      exact .refl _
    · intro hr
      cases hr with
      | refl => rfl
      | step h1 h2 h3 _ _ =>
        have := env.fs.nested _ _ _ h1 h2 h3
        omega
  | succ n ih =>
    intro p d h
    simp only [visited, List.mem_cons, List.mem_flatMap, List.mem_filter, descends_iff]
    constructor
    · rintro (rfl | ⟨⟨m, i⟩, ⟨he, h1, h2, h3⟩, hd⟩)
      · exact .refl _
      · have := env.fs.nested _ _ _ he h1 h2
        exact .step he h1 h2 h3 ((ih _ _ (by omega)).1 hd)
    · intro hr
      cases hr with
      | refl => exact .inl rfl
      | @step _ _ m i h1 h2 h3 h4 h5 =>
        have := env.fs.nested _ _ _ h1 h2 h3
        exact .inr ⟨(m, i), ⟨h1, h2, h3, h4⟩, (ih (p ++ [m]) _ (by omega)).2 h5⟩

theorem takePart_ne (part : Name) (rest : List Name) : (takePart part rest).2.1 ≠ starStar := by
  induction rest generalizing part with
  | nil => unfold takePart; split <;> simp_all [star, starStar]
  | cons n r ih =>
    unfold takePart
    split
    · exact ih n
    · assumption

theorem takePart_not (part : Name) (rest : List Name) (h : part ≠ starStar) :
    takePart part rest = (false, part, rest) := by
  cases rest <;> simp [takePart, h]

/-- Everything but the first `**`s. -/
theorem looks_takePart (rest : List Name) (next : Name) : looksIntoHidden (next :: rest) =
    (filtersFor (takePart next rest).2.1 (!(takePart next rest).2.2.isEmpty)).hidden := by
  induction rest generalizing next with
  | nil =>
    by_cases h : next = starStar
    · subst h; decide
    · simp [takePart, h, looksIntoHidden, filtersFor]
  | cons m r ih =>
    by_cases h : next = starStar
    · subst h
      have : looksIntoHidden (starStar :: m :: r) = looksIntoHidden (m :: r) := by simp [looksIntoHidden]
      rw [this, ih]
      simp [takePart]
    · rw [takePart_not _ _ h]
      simp [h, looksIntoHidden, filtersFor]

theorem denotes_down {env : Env} {rest : List Name} {raw : Path} {p d : Path}
    (hr : Reach env (looksIntoHidden rest) p d) (h : Denotes env d (starStar :: rest) raw) :
    Denotes env p (starStar :: rest) raw := by
  induction hr with
  | refl => exact h
  | step h1 h2 h3 h4 _ ih => exact .down h1 h2 h3 h4 (ih h)

theorem Reach.trans {env : Env} {hid : Bool} {a b c : Path} (h : Reach env hid a b) (h' : Reach env hid b c) :
    Reach env hid a c := by
  induction h with
  | refl => exact h'
  | step h1 h2 h3 h4 _ ih => exact .step h1 h2 h3 h4 (ih h')

/-- `**` at the beginning: from some directory further down. -/
theorem denotes_starStar_aux {env : Env} {base : Path} {parts : List Name} {raw : Path}
    (h : Denotes env base parts raw) : ∀ rest, parts = starStar :: rest → rest ≠ [] →
    ∃ d, Reach env (looksIntoHidden rest) base d ∧ Denotes env d rest raw := by
  induction h with
  | file hp => intro rest he; simp at he; exact absurd he.1 hp
  | dir hp => intro rest he; simp at he; exact absurd he.1 hp
  | dots hp =>
    intro rest he
    simp only [List.cons.injEq] at he
    rw [he.1] at hp
    exact absurd hp (by decide)
  | here hne hd ih =>
    intro rest he _
    simp only [List.cons.injEq, true_and] at he
    subst he
    exact ⟨_, .refl _, hd⟩
  | down h1 h2 h3 h4 _ ih =>
    intro rest he hne
    obtain ⟨d, hr, hd⟩ := ih rest he hne
    simp only [List.cons.injEq, true_and] at he
    subst he
    exact ⟨d, .step h1 h2 h3 h4 hr, hd⟩
  | all h ih =>
    intro rest he hne
    simp only [List.cons.injEq, true_and] at he
    exact absurd he.symm hne

theorem denotes_starStar {env : Env} {base : Path} {rest : List Name} {raw : Path} (hne : rest ≠ []) :
    Denotes env base (starStar :: rest) raw ↔
    ∃ d, Reach env (looksIntoHidden rest) base d ∧ Denotes env d rest raw := by
  constructor
  · exact fun h => denotes_starStar_aux h rest rfl hne
  · rintro ⟨d, hr, hd⟩
    exact denotes_down hr (.here hne hd)

theorem denotes_all {env : Env} {base : Path} {raw : Path} : Denotes env base [starStar] raw ↔
    Denotes env base [starStar, star] raw := by
  constructor
  · intro h
    generalize hp : [starStar] = parts at h
    induction h with
    | file h1 => simp at hp; exact absurd hp.symm h1
    | dir h1 => simp at hp; exact absurd hp.1.symm h1
    | dots h1 h2 => simp at hp; exact absurd hp.2.symm (by simpa using h2)
    | here h1 => simp at hp; exact absurd hp.symm (by simpa using h1)
    | down h1 h2 h3 h4 h5 ih =>
      simp only [List.cons.injEq, true_and] at hp
      subst hp
      refine .down h1 h2 h3 ?_ (ih rfl)
      intro hh
      have := h4 hh
      simp [looksIntoHidden] at this
    | all h1 => exact h1
  · exact .all

theorem denotes_takePart {env : Env} {raw : Path} (rest : List Name) : ∀ (part : Name) (base : Path),
    Denotes env base (part :: rest) raw ↔
    ∃ d, (if (takePart part rest).1 then
        Reach env (filtersFor (takePart part rest).2.1 (!(takePart part rest).2.2.isEmpty)).hidden base d else d = base) ∧
      Denotes env d ((takePart part rest).2.1 :: (takePart part rest).2.2) raw := by
  induction rest with
  | nil =>
    intro part base
    by_cases h : part = starStar
    · subst h
      have : takePart starStar [] = (true, star, []) := by decide
      rw [this, denotes_all, denotes_starStar (by simp)]
      have h2 : looksIntoHidden [star] = (filtersFor star (!([] : List Name).isEmpty)).hidden := by decide
      simp only [h2, if_true]
    · rw [takePart_not _ _ h]
      simp
  | cons next rest ih =>
    intro part base
    by_cases h : part = starStar
    · subst h
      have : takePart starStar (next :: rest) = (true, (takePart next rest).2) := by simp [takePart]
      rw [this, denotes_starStar (by simp)]
      simp only [if_true, looks_takePart]
      constructor
      · rintro ⟨d, hr, hd⟩
        obtain ⟨e, he, hd⟩ := (ih next d).1 hd
        refine ⟨e, ?_, hd⟩
        split at he
        · exact hr.trans he
        · rw [he]; exact hr
      · rintro ⟨d, hr, hd⟩
        refine ⟨d, hr, (ih next d).2 ⟨d, ?_, hd⟩⟩
        split
        · exact .refl _
        · rfl
    · rw [takePart_not _ _ h]
      simp

theorem denotes_ext {env : Env} {base : Path} {parts : List Name} {raw : Path} (h : Denotes env base parts raw) :
    ∃ t, t ≠ [] ∧ raw = base ++ t := by
  induction h with
  | file => exact ⟨_, by simp, rfl⟩
  | dir _ _ _ _ _ _ _ ih =>
    obtain ⟨t, ht, e⟩ := ih
    exact ⟨_, by simp, e.trans (List.append_assoc _ _ _)⟩
  | dots _ _ _ ih =>
    obtain ⟨t, ht, e⟩ := ih
    exact ⟨_, by simp, e.trans (List.append_assoc _ _ _)⟩
  | here _ _ ih => exact ih
  | down _ _ _ _ _ ih =>
    obtain ⟨t, ht, e⟩ := ih
    exact ⟨_, by simp, e.trans (List.append_assoc _ _ _)⟩
  | all _ ih => exact ih

theorem str_append (p q : Path) : str (p ++ q) = str p ++ str q := by simp [str]

theorem startsWith_append {p q dir : Path} (h : startsWith p dir = true) : startsWith (p ++ q) dir = true := by
  unfold startsWith at *
  rw [List.isPrefixOf_iff_prefix] at *
  rw [str_append]
  exact h.trans (List.prefix_append _ _)

theorem dropLast_append_ne {α : Type} (p t : List α) (ht : t ≠ []) : (p ++ t).dropLast = p ++ t.dropLast := by
  rw [List.dropLast_append_of_ne_nil ht]

end Verif.Wild
