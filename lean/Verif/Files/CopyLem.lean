import Verif.Files.RemoveLem
/-!
# Lemmas on copying files
-/
namespace Verif.Files

variable {e : Env}

theorem follow_self {fs : FS} {p : Path} {n : Node} (h : get fs p = some n) (hl : ∀ t, n ≠ .link t) : follow e fs p = some p := by
  unfold follow
  simp only [followN]
  rw [h]
  cases n with
  | link t => exact absurd rfl (hl t)
  | _ => rfl

theorem follow_none {fs : FS} {p : Path} (h : get fs p = none) : follow e fs p = none := by
  unfold follow
  simp only [followN]
  rw [h]

theorem put_wf {fs : FS} (h : WF fs) {p : Path} (hg : get fs p = none) (hp : IsDir (get fs p.dropLast)) (n : Node) : WF (put fs p n) := by
  have hne : p ≠ [] := by
    intro h0
    obtain ⟨w, t, hr⟩ := h.root
    rw [h0, hr] at hg
    simp at hg
  constructor
  · obtain ⟨w, t, hr⟩ := h.root
    exact ⟨w, t, by rw [get_put, if_neg (fun e => hne e.symm), hr]⟩
  · intro q m hq
    rw [get_put] at hq
    have key : IsDir (get fs q) → ∃ w t, get (put fs p n) q = some (.dir w t) := by
      rintro ⟨w, t, hd⟩
      refine ⟨w, t, ?_⟩
      rw [get_put, if_neg, hd]
      rintro rfl
      rw [hg] at hd
      simp at hd
    split at hq
    · rename_i e1
      apply key
      rw [← e1] at hp
      simpa using hp
    · exact key (h.parents q m hq)

def AllOk (e : Env) : Prop := ∀ n o, e.ok n o = true

/-- What creating directories does -/
structure Made (e : Env) (p : Path) (s : St) (b : Bool) (s' : St) : Prop where
  wf : WF s'.fs
  changes : ∀ q, get s'.fs q = get s.fs q ∨ (q <+: p ∧ get s.fs q = none ∧ IsDir (get s'.fs q))
  dir : b = true → IsDir (get s'.fs p)
  succeeds : AllOk e → (∀ q, q <+: p → get s.fs q = none ∨ IsDir (get s.fs q)) → b = true

theorem ensureDir_made (p : Path) (s : St) (hw : WF s.fs) (hp : get s.fs p = none → IsDir (get s.fs p.dropLast)) :
    Made e p s (ensureDir e p s).1 (ensureDir e p s).2 := by
  unfold ensureDir
  split
  · rename_i w t h
    exact ⟨hw, fun _ => .inl rfl, fun _ => ⟨w, t, h⟩, fun _ _ => rfl⟩
  · rename_i n hd hg
    refine ⟨hw, fun _ => .inl rfl, by simp, fun _ hq => ?_⟩
    rcases hq p List.prefix_rfl with h | ⟨w, t, h⟩
    · rw [hg] at h; simp at h
    · rw [hg] at h
      simp only [Option.some.injEq] at h
      exact absurd h (hd w t)
  · rename_i hg
    split
    · refine ⟨put_wf hw hg (hp hg) _, ?_, fun _ => ⟨true, e.now s.step, by rw [get_put]; simp⟩, fun _ _ => rfl⟩
      intro q
      dsimp only
      rw [get_put]
      by_cases h : q = p
      · subst h
        exact .inr ⟨List.prefix_rfl, hg, true, e.now s.step, by simp⟩
      · exact .inl (by simp [h])
    · rename_i hok
      exact ⟨hw, fun _ => .inl rfl, by simp, fun ho _ => absurd (ho _ _) hok⟩

theorem Made.trans {p p' : Path} (hp : p <+: p') {s s1 s2 : St} {b : Bool} (h : Made e p s true s1) (h' : Made e p' s1 b s2) :
    Made e p' s b s2 := by
  refine ⟨h'.wf, fun q => ?_, h'.dir, fun ho hq => h'.succeeds ho (fun q hqp => ?_)⟩
  · rcases h'.changes q with h2 | ⟨h2, h3, h4⟩
    · rcases h.changes q with h1 | ⟨h1, h5, h6⟩
      · exact .inl (h2.trans h1)
      · exact .inr ⟨h1.trans hp, h5, by rw [h2]; exact h6⟩
    · rcases h.changes q with h1 | ⟨h1, h5, h6⟩
      · exact .inr ⟨h2, by rw [← h1, h3], h4⟩
      · exact .inr ⟨h2, h5, h4⟩
  · rcases h.changes q with h1 | ⟨h1, h5, h6⟩
    · rw [h1]; exact hq q hqp
    · exact .inr h6

theorem mkpathFrom_made : ∀ (l : List Name) (p : Path) (s : St), WF s.fs → (get s.fs p = none → IsDir (get s.fs p.dropLast)) →
    Made e (p ++ l) s (mkpathFrom e p l s).1 (mkpathFrom e p l s).2
  | [], p, s, hw, hp => by
    rw [List.append_nil]
    exact ensureDir_made p s hw hp
  | n :: l, p, s, hw, hp => by
    have happ : p ++ n :: l = (p ++ [n]) ++ l := by simp
    have h1 := ensureDir_made (e := e) p s hw hp
    simp only [mkpathFrom]
    cases hb : (ensureDir e p s).1 with
    | true =>
      rw [hb] at h1
      rw [if_pos rfl, happ]
      have h2 := mkpathFrom_made l (p ++ [n]) (ensureDir e p s).2 h1.wf (fun _ => by
        rw [List.dropLast_concat]; exact h1.dir rfl)
      exact h1.trans ⟨n :: l, by simp⟩ h2
    | false =>
      rw [hb] at h1
      rw [if_neg (by simp), hb]
      have hpre : p <+: p ++ n :: l := ⟨n :: l, rfl⟩
      exact ⟨h1.wf, fun q => (h1.changes q).imp id (fun h => ⟨h.1.trans hpre, h.2⟩), by simp,
        fun ho hq => h1.succeeds ho (fun q hqp => hq q (hqp.trans hpre))⟩

theorem mkpath_made (p : Path) (s : St) (hw : WF s.fs) : Made e p s (mkpath e p s).1 (mkpath e p s).2 := by
  have := mkpathFrom_made (e := e) p [] s hw (fun h => by
    obtain ⟨w, t, hr⟩ := hw.root
    rw [hr] at h
    simp at h)
  simpa [mkpath] using this

/-! ## A single file or link -/

/-- Only what is at a path may have changed. -/
def OnlyAt (p : Path) (s s' : St) : Prop := ∀ q, q ≠ p → get s'.fs q = get s.fs q

theorem OnlyAt.refl (p : Path) (s : St) : OnlyAt p s s := fun _ _ => rfl

theorem OnlyAt.trans {p : Path} {s s1 s2 : St} (h : OnlyAt p s s1) (h' : OnlyAt p s1 s2) : OnlyAt p s s2 :=
  fun q hq => (h' q hq).trans (h q hq)

theorem chmod_only {p : Path} {s : St} (hl : ∀ t, get s.fs p ≠ some (.link t)) :
    OnlyAt p s (chmod e p s) ∧ (IsDir (get (chmod e p s).fs p) ↔ IsDir (get s.fs p)) ∧
      (get (chmod e p s).fs p = none ↔ get s.fs p = none) := by
  cases hg : get s.fs p with
  | none =>
    have : (chmod e p s).fs = s.fs := by unfold chmod; rw [follow_none hg]
    rw [this, hg]
    exact ⟨fun q _ => by rw [this], Iff.rfl, Iff.rfl⟩
  | some n =>
    have hl' : ∀ t, n ≠ .link t := fun t h => hl t (by rw [hg, h])
    unfold chmod
    rw [follow_self hg hl']
    dsimp only
    split
    · rw [hg]
      dsimp only
      refine ⟨fun q hq => by dsimp only; rw [get_put, if_neg hq], ?_, ?_⟩
      · rw [get_put, if_pos rfl]
        cases n <;> simp [IsDir, Node.makeWritable]
      · rw [get_put, if_pos rfl]; simp
    · exact ⟨fun _ _ => rfl, by simp [hg], by simp [hg]⟩

theorem unlink_only (p : Path) (s : St) : OnlyAt p s (unlink e p s).2 := by
  intro q hq
  rcases unlink_cases (e := e) p s with ⟨_, hs, _⟩ | ⟨_, hs, _⟩
  · rw [hs]; dsimp only; rw [get_del, if_neg hq]
  · rw [hs]

theorem unlink_wf {p : Path} {s : St} (hw : WF s.fs) : WF (unlink e p s).2.fs := by
  rcases unlink_cases (e := e) p s with ⟨_, hs, _, n, hn, hd⟩ | ⟨_, hs, _⟩
  · rw [hs]
    refine del_wf hw ?_ (hw.leaf ?_)
    · rintro rfl
      obtain ⟨w, t, hr⟩ := hw.root
      rw [hr] at hn
      simp only [Option.some.injEq] at hn
      exact hd w t hn.symm
    · intro w t h
      rw [hn] at h
      simp only [Option.some.injEq] at h
      exact hd w t h
  · rw [hs]; exact hw

theorem unlink_none {p : Path} {s : St} (ho : AllOk e) (hd : ¬ IsDir (get s.fs p)) : get (unlink e p s).2.fs p = none := by
  rcases unlink_cases (e := e) p s with ⟨_, hs, _, n, hn, _⟩ | ⟨_, hs, hr⟩
  · rw [hs]; simp [get_del]
  · rw [hs]
    dsimp only
    cases hg : get s.fs p with
    | none => rfl
    | some n =>
      have := hr ⟨n, hg, fun w t h => hd ⟨w, t, by rw [hg, h]⟩⟩
      rw [ho] at this
      simp at this

theorem createLink_spec {p : Path} {s : St} (t : String) (hw : WF s.fs) (hp : IsDir (get s.fs p.dropLast)) (hne : p ≠ []) :
    WF (createLink e t p s).2.fs ∧ OnlyAt p s (createLink e t p s).2 ∧
    ((createLink e t p s).1 = true → get (createLink e t p s).2.fs p = some (.link t)) ∧
    (AllOk e → ¬ IsDir (get s.fs p) → (createLink e t p s).1 = true) := by
  unfold createLink
  split
  · rename_i h
    exact ⟨hw, OnlyAt.refl _ _, fun _ => h, fun _ _ => rfl⟩
  · have h1 := unlink_only (e := e) p s
    have h2 := unlink_wf (e := e) (p := p) hw
    have h3 := fun ho hd => unlink_none (e := e) (p := p) (s := s) ho hd
    generalize (unlink e p s).2 = s1 at *
    have hpne : p.dropLast ≠ p := by
      intro h
      have := congrArg List.length h
      have hpos : 0 < p.length := List.length_pos_iff.mpr hne
      simp at this
      omega
    dsimp only
    split
    · rename_i hc
      refine ⟨put_wf h2 hc.1 (by rw [h1 _ hpne]; exact hp) _, h1.trans (fun q hq => by dsimp only; rw [get_put, if_neg hq]),
        fun _ => by dsimp only; rw [get_put, if_pos rfl], fun _ _ => rfl⟩
    · rename_i hc
      refine ⟨h2, h1, by simp, fun ho hd => absurd ⟨h3 ho hd, ho _ _⟩ hc⟩

theorem dropLast_ne {p : Path} (hne : p ≠ []) : p.dropLast ≠ p := by
  intro h
  have := congrArg List.length h
  have hpos : 0 < p.length := List.length_pos_iff.mpr hne
  simp at this
  omega

theorem exists_iff {fs : FS} {p : Path} (hl : ∀ t, get fs p ≠ some (.link t)) : exists? e fs p = true ↔ get fs p ≠ none := by
  unfold exists?
  cases hg : get fs p with
  | none => rw [follow_none hg]; simp
  | some n => rw [follow_self hg (fun t h => hl t (by rw [hg, h]))]; simp

theorem newer_of_time {fs : FS} {p : Path} (hl : ∀ t, get fs p ≠ some (.link t)) (hg : get fs p ≠ none) {t : Nat}
    (ht : t ≤ timeOf e fs p) : Newer t (get fs p) := by
  cases h : get fs p with
  | none => exact absurd h hg
  | some n =>
    unfold timeOf at ht
    rw [follow_self h (fun t e => hl t (by rw [h, e]))] at ht
    simp only [Option.bind_some, h] at ht
    cases n with
    | file c w t => exact .file c w ht
    | dir w t => exact .dir w ht
    | link t => exact absurd h (hl t)

theorem timeOf_file {fs : FS} {p : Path} {c : Nat} {w : Bool} {t : Nat} (h : get fs p = some (.file c w t)) : timeOf e fs p = t := by
  unfold timeOf
  rw [follow_self h (by simp)]
  simp [h]

theorem timeOf_none {fs : FS} {p : Path} (h : get fs p = none) : timeOf e fs p = 0 := by
  unfold timeOf
  rw [follow_none h]
  rfl

theorem replaceFile_none {src tgt : Path} {s : St} (hl : ∀ t, get s.fs tgt ≠ some (.link t)) (h : get s.fs src = none) :
    (replaceFile e src tgt s).2.fs = s.fs ∧ ((replaceFile e src tgt s).1 = true ↔ get s.fs tgt ≠ none) := by
  unfold replaceFile
  rw [timeOf_none h]
  split
  · rename_i hc
    exact ⟨rfl, by simp [(exists_iff hl).mp hc.1]⟩
  · rename_i hc
    have hne : ¬ exists? e s.fs tgt = true := fun hx => hc ⟨hx, Nat.zero_le _⟩
    rw [if_neg hne]
    unfold copyFile
    dsimp only
    rw [follow_none h]
    simp only [Option.bind_none]
    rw [exists_iff hl] at hne
    simp [fail, hne]

theorem copyFile_file {src tgt : Path} {s : St} {c : Nat} {w : Bool} {t : Nat} (h : get s.fs src = some (.file c w t)) :
    ((copyFile e src tgt s).1 = true ∧ get s.fs tgt = none ∧
      (copyFile e src tgt s).2.fs = put s.fs tgt (.file c w (e.now s.step))) ∨
    ((copyFile e src tgt s).1 = false ∧ (copyFile e src tgt s).2.fs = s.fs ∧ (AllOk e → get s.fs tgt ≠ none)) := by
  unfold copyFile
  rw [follow_self h (by simp)]
  simp only [Option.bind_some, h]
  split
  · rename_i c' w' t' h1 h2
    simp only [Option.some.injEq, Node.file.injEq] at h1
    obtain ⟨rfl, rfl, rfl⟩ := h1
    split
    · exact .inl ⟨rfl, h2, rfl⟩
    · rename_i ho; exact .inr ⟨rfl, rfl, fun hok => absurd (hok _ _) ho⟩
  · rename_i hn
    exact .inr ⟨rfl, rfl, fun _ h2 => hn c w t rfl h2⟩

theorem replaceFile_file {src tgt : Path} {s : St} (hw : WF s.fs) (hp : IsDir (get s.fs tgt.dropLast)) (hne : tgt ≠ [])
    (hst : src ≠ tgt) (hl : ∀ t, get s.fs tgt ≠ some (.link t)) {c : Nat} {w : Bool} {t : Nat} (h : get s.fs src = some (.file c w t)) :
    WF (replaceFile e src tgt s).2.fs ∧ OnlyAt tgt s (replaceFile e src tgt s).2 ∧
    ((replaceFile e src tgt s).1 = true → (∃ t', get (replaceFile e src tgt s).2.fs tgt = some (.file c w t')) ∨
      (get (replaceFile e src tgt s).2.fs tgt = get s.fs tgt ∧ Newer t (get s.fs tgt))) ∧
    (AllOk e → ¬ IsDir (get s.fs tgt) → (replaceFile e src tgt s).1 = true) := by
  unfold replaceFile
  rw [timeOf_file h]
  split
  · rename_i hc
    exact ⟨hw, OnlyAt.refl _ _, fun _ => .inr ⟨rfl, newer_of_time hl ((exists_iff hl).mp hc.1) hc.2⟩, fun _ _ => rfl⟩
  · have hs1 : ∃ s1, (if exists? e s.fs tgt = true then (unlink e tgt (chmod e tgt s)).2 else s) = s1 ∧ WF s1.fs ∧ OnlyAt tgt s s1 ∧
        (AllOk e → ¬ IsDir (get s.fs tgt) → get s1.fs tgt = none) := by
      refine ⟨_, rfl, ?_⟩
      split
      · obtain ⟨hc1, hc2, hc3⟩ := chmod_only (e := e) hl
        exact ⟨unlink_wf (chmod_wf hw), hc1.trans (unlink_only _ _), fun ho hd => unlink_none ho (fun hx => hd (hc2.mp hx))⟩
      · rename_i hx
        rw [exists_iff hl] at hx
        exact ⟨hw, OnlyAt.refl _ _, fun _ _ => by simpa using hx⟩
    obtain ⟨s1, he, hw1, ho1, hn1⟩ := hs1
    dsimp only
    rw [he]
    have hsrc : get s1.fs src = some (.file c w t) := by rw [ho1 _ hst, h]
    rcases copyFile_file (e := e) (tgt := tgt) hsrc with ⟨hb, hn, hf⟩ | ⟨hb, hf, hn⟩
    · rw [if_pos hb, hf]
      refine ⟨put_wf hw1 hn (by rw [ho1 _ (dropLast_ne hne)]; exact hp) _, fun q hq => ?_, fun _ => .inl ⟨e.now s1.step, ?_⟩, fun _ _ => hb⟩
      · rw [hf, get_put, if_neg hq]; exact ho1 q hq
      · rw [get_put, if_pos rfl]
    · have hb' : ¬ (copyFile e src tgt s1).1 = true := by rw [hb]; simp
      rw [if_neg hb']
      refine ⟨by simpa [fail, hf] using hw1, fun q hq => ?_, by simp, fun ho hd => absurd (hn1 ho hd) (hn ho)⟩
      simp only [fail, hf]
      exact ho1 q hq

/-! ## Directories -/

/-- What holds after copying something -/
structure Copied (e : Env) (src tgt : Path) (s : St) (b : Bool) (s' : St) : Prop where
  wf : WF s'.fs
  outside : ∀ q, ¬ tgt <+: q → get s'.fs q = get s.fs q ∨ (q <+: tgt ∧ get s.fs q = none ∧ IsDir (get s'.fs q))
  arrived : b = true → ∀ q, Arrived s.fs s'.fs (src ++ q) (tgt ++ q)
  touched : ∀ q, get s'.fs (tgt ++ q) ≠ get s.fs (tgt ++ q) → get s.fs (src ++ q) ≠ none
  parent : b = true → IsDir (get s'.fs tgt.dropLast)
  succeeds : AllOk e → Compatible s.fs src tgt → get s.fs src ≠ none → b = true

/-- The same for the loop -/
structure CopiedIn (e : Env) (src tgt : Path) (l : List Name) (s : St) (b : Bool) (s' : St) : Prop where
  wf : WF s'.fs
  outside : ∀ q, ¬ tgt <+: q → get s'.fs q = get s.fs q ∨ (q <+: tgt ∧ get s.fs q = none ∧ IsDir (get s'.fs q))
  self : get s'.fs tgt = get s.fs tgt ∨ (l ≠ [] ∧ get s.fs tgt = none ∧ IsDir (get s'.fs tgt))
  dir : b = true → l ≠ [] → IsDir (get s'.fs tgt)
  others : ∀ n r, n ∉ l → get s'.fs (tgt ++ [n] ++ r) = get s.fs (tgt ++ [n] ++ r)
  arrived : b = true → ∀ n ∈ l, ∀ r, Arrived s.fs s'.fs (src ++ [n] ++ r) (tgt ++ [n] ++ r)
  touched : ∀ n r, get s'.fs (tgt ++ [n] ++ r) ≠ get s.fs (tgt ++ [n] ++ r) → get s.fs (src ++ [n] ++ r) ≠ none
  succeeds : AllOk e → (∀ n ∈ l, Compatible s.fs (src ++ [n]) (tgt ++ [n]) ∧ get s.fs (src ++ [n]) ≠ none) → b = true

/-- What is needed before -/
structure Ready (fs : FS) (src tgt : Path) (d : Nat) : Prop where
  wf : WF fs
  bound : ∀ q, get fs (src ++ q) ≠ none → (src ++ q).length < d
  noLinks : ∀ q t, get fs (tgt ++ q) ≠ some (.link t)

theorem Apart.child {src tgt : Path} (h : Apart src tgt) (n : Name) : Apart (src ++ [n]) (tgt ++ [n]) := by
  constructor
  · rintro ⟨r, hr⟩
    apply h.1
    rcases List.prefix_or_prefix_of_prefix (l₁ := src) (l₂ := tgt) (l₃ := tgt ++ [n]) ⟨n :: r, by rw [← hr]; simp⟩ ⟨[n], rfl⟩ with h' | h'
    · exact h'
    · exact absurd h' h.2
  · rintro ⟨r, hr⟩
    apply h.2
    rcases List.prefix_or_prefix_of_prefix (l₁ := src) (l₂ := tgt) (l₃ := src ++ [n]) ⟨[n], rfl⟩ ⟨n :: r, by rw [← hr]; simp⟩ with h' | h'
    · exact absurd h' h.1
    · exact h'

theorem Apart.below {src tgt : Path} (h : Apart src tgt) (q : Path) : ¬ tgt <+: src ++ q := by
  intro h'
  rcases List.prefix_or_prefix_of_prefix (l₁ := src) (l₂ := tgt) ⟨q, rfl⟩ h' with h' | h'
  · exact h.1 h'
  · exact h.2 h'

theorem Apart.not_above {src tgt : Path} (h : Apart src tgt) (q : Path) : ¬ src ++ q <+: tgt := by
  intro h'
  exact h.1 ((List.prefix_append src q).trans h')

/-- The source is not changed by copying. -/
theorem source_same {src tgt : Path} (ha : Apart src tgt) {s s' : St}
    (h : ∀ q, ¬ tgt <+: q → get s'.fs q = get s.fs q ∨ (q <+: tgt ∧ get s.fs q = none ∧ IsDir (get s'.fs q))) (q : Path) :
    get s'.fs (src ++ q) = get s.fs (src ++ q) := by
  rcases h _ (ha.below q) with h | h
  · exact h
  · exact absurd h.1 (ha.not_above q)

theorem Arrived.congr {fs fs' gs gs' : FS} {src tgt : Path} (h : Arrived fs fs' src tgt)
    (h1 : ∀ q, get fs (src ++ q) = get gs (src ++ q)) (h2 : get fs tgt = get gs tgt) (h3 : get gs' tgt = get fs' tgt) :
    Arrived gs gs' src tgt := by
  have h0 := h1 []
  rw [List.append_nil] at h0
  unfold Arrived at *
  simp only [h1, h2, h0, ← h3] at h
  exact h

theorem eachUntil_copied {f : Path → Path → St → Bool × St} {src tgt : Path} (ha : Apart src tgt) {d : Nat}
    (hf : ∀ n s, Ready s.fs (src ++ [n]) (tgt ++ [n]) d →
      Copied e (src ++ [n]) (tgt ++ [n]) s (f (src ++ [n]) (tgt ++ [n]) s).1 (f (src ++ [n]) (tgt ++ [n]) s).2) :
    ∀ (l : List Name) (s : St), l.Nodup → WF s.fs → (∀ n ∈ l, Ready s.fs (src ++ [n]) (tgt ++ [n]) d) →
      CopiedIn e src tgt l s (eachUntil f src tgt l s).1 (eachUntil f src tgt l s).2
  | [], s, _, hw, _ => by
    simp only [eachUntil]
    exact ⟨hw, fun _ _ => .inl rfl, .inl rfl, by simp, fun _ _ _ => rfl, by simp, by simp, fun _ _ => rfl⟩
  | n :: l, s, hnd, hw, hr => by
    rw [List.nodup_cons] at hnd
    have h1 := hf n s (hr n List.mem_cons_self)
    simp only [eachUntil]
    generalize f (src ++ [n]) (tgt ++ [n]) s = x at h1
    obtain ⟨b, s1⟩ := x
    dsimp only at h1
    -- what the first step leaves alone
    have hout : ∀ q, ¬ tgt <+: q → get s1.fs q = get s.fs q ∨ (q <+: tgt ∧ get s.fs q = none ∧ IsDir (get s1.fs q)) := by
      intro q hq
      rcases h1.outside q (fun h => hq ((prefix_child tgt n).trans h)) with h | ⟨h, h2, h3⟩
      · exact .inl h
      · rcases List.prefix_or_prefix_of_prefix h (prefix_child tgt n) with h' | h'
        · exact .inr ⟨h', h2, h3⟩
        · exact absurd h' hq
    have hself : get s1.fs tgt = get s.fs tgt ∨ (get s.fs tgt = none ∧ IsDir (get s1.fs tgt)) := by
      rcases h1.outside tgt (not_prefix_child tgt n) with h | h
      · exact .inl h
      · exact .inr h.2
    have hoth : ∀ m r, m ≠ n → get s1.fs (tgt ++ [m] ++ r) = get s.fs (tgt ++ [m] ++ r) := by
      intro m r hm
      have hnp : ¬ (tgt ++ [n]) <+: (tgt ++ [m] ++ r) := fun h => hm (child_eq ⟨r, rfl⟩ h)
      rcases h1.outside _ hnp with h | ⟨h, _, _⟩
      · exact h
      · exact absurd (child_eq (q := tgt ++ [n]) ((List.prefix_append (tgt ++ [m]) r).trans h) List.prefix_rfl) hm
    have hsrc : ∀ m r, get s1.fs (src ++ [m] ++ r) = get s.fs (src ++ [m] ++ r) := by
      intro m r
      rw [List.append_assoc]
      exact source_same ha hout _
    cases b with
    | false =>
      rw [if_neg (by simp)]
      refine ⟨h1.wf, hout, hself.imp id (fun h => ⟨by simp, h⟩), by simp, ?_, by simp, ?_, ?_⟩
      · intro m r hm
        exact hoth m r (fun h => hm (by rw [h]; exact List.mem_cons_self))
      · intro m r hc
        by_cases h : m = n
        · subst h; exact h1.touched r hc
        · exact absurd (hoth m r h) hc
      · intro ho hc
        exact h1.succeeds ho (hc n List.mem_cons_self).1 (hc n List.mem_cons_self).2
    | true =>
      rw [if_pos rfl]
      have hne : ∀ m ∈ l, m ≠ n := fun m hm h => hnd.1 (h ▸ hm)
      have h2 := eachUntil_copied ha hf l s1 hnd.2 h1.wf (fun m hm => by
        have := hr m (List.mem_cons_of_mem _ hm)
        exact ⟨h1.wf, fun q hq => this.bound q (by rw [← hsrc]; exact hq), fun q t => by rw [hoth m q (hne m hm)]; exact this.noLinks q t⟩)
      generalize eachUntil f src tgt l s1 = y at h2
      obtain ⟨b2, s2⟩ := y
      dsimp only at h2
      have hdir1 : IsDir (get s1.fs tgt) := by
        have := h1.parent rfl
        rwa [List.dropLast_concat] at this
      have hdir2 : IsDir (get s2.fs tgt) := by
        rcases h2.self with h | h
        · rw [h]; exact hdir1
        · exact h.2.2
      refine ⟨h2.wf, ?_, ?_, fun _ _ => hdir2, ?_, ?_, ?_, ?_⟩
      · intro q hq
        rcases h2.outside q hq with h | ⟨h, h3, h4⟩
        · rw [h]; exact hout q hq
        · rcases hout q hq with h5 | ⟨h5, h6, h7⟩
          · exact .inr ⟨h, by rw [← h5, h3], h4⟩
          · exact .inr ⟨h, h6, h4⟩
      · rcases h2.self with h | h
        · rw [h]; exact hself.imp id (fun h => ⟨by simp, h⟩)
        · rcases hself with h5 | h5
          · exact .inr ⟨by simp, by rw [← h5, h.2.1], h.2.2⟩
          · exact .inr ⟨by simp, h5.1, h.2.2⟩
      · intro m r hm
        rw [List.mem_cons, not_or] at hm
        rw [h2.others m r hm.2, hoth m r hm.1]
      · intro hb m hm r
        rcases List.mem_cons.mp hm with rfl | hm
        · exact (h1.arrived rfl r).congr (fun _ => rfl) rfl (h2.others m r hnd.1)
        · refine (h2.arrived hb m hm r).congr (fun q => ?_) (hoth m r (hne m hm)) rfl
          rw [List.append_assoc _ r, hsrc]
      · intro m r hc
        by_cases h : get s1.fs (tgt ++ [m] ++ r) = get s.fs (tgt ++ [m] ++ r)
        · rw [← hsrc]
          exact h2.touched m r (by rw [h]; exact hc)
        · by_cases hm : m = n
          · subst hm; exact h1.touched r h
          · exact absurd (hoth m r hm) h
      · intro ho hc
        refine h2.succeeds ho (fun m hm => ?_)
        obtain ⟨hcm, hex⟩ := hc m (List.mem_cons_of_mem _ hm)
        refine ⟨⟨fun q hq hqne => ?_, fun q => ?_, fun q => ?_⟩, by have := hsrc m []; simp only [List.append_nil] at this; rw [this]; exact hex⟩
        · have hqt : q <+: tgt := by
            rcases List.prefix_or_prefix_of_prefix hq (prefix_child tgt m) with h' | ⟨r, hr'⟩
            · exact h'
            · obtain ⟨r2, hr2⟩ := hq
              cases r with
              | nil => rw [List.append_nil] at hr'; rw [← hr']; exact List.prefix_rfl
              | cons a r =>
                exfalso
                apply hqne
                rw [← hr', List.append_assoc] at hr2
                have := List.append_cancel_left hr2
                simp only [List.cons_append, List.cons.injEq, List.append_eq_nil_iff] at this
                rw [← hr', this.1, this.2.1]
          by_cases hqe : q = tgt
          · subst hqe
            exact .inr hdir1
          · have hnp : ¬ tgt <+: q := fun h => hqe (List.IsPrefix.eq_of_length_le hqt h.length_le)
            rcases hout q hnp with h | h
            · rw [h]; exact hcm.above q hq hqne
            · exact .inr h.2.2
        · rw [hsrc, hoth m q (hne m hm)]; exact hcm.leaf q
        · rw [hsrc, hoth m q (hne m hm)]; exact hcm.dir q

theorem Apart.tgt_ne {src tgt : Path} (h : Apart src tgt) : tgt ≠ [] := fun e => h.2 (by rw [e]; exact List.nil_prefix)
theorem Apart.src_ne {src tgt : Path} (h : Apart src tgt) : src ≠ [] := fun e => h.1 (by rw [e]; exact List.nil_prefix)

theorem not_below_dropLast {p q : Path} (hne : p ≠ []) (h : p <+: q) : ¬ q <+: p.dropLast := by
  intro h'
  have h1 := h.length_le
  have h2 := h'.length_le
  have hpos : 0 < p.length := List.length_pos_iff.mpr hne
  simp at h2
  omega

/-- After the directory for the target has been made -/
theorem Made.facts {src tgt : Path} (ha : Apart src tgt) {s s1 : St} {b : Bool} (h : Made e tgt.dropLast s b s1) :
    (∀ q, get s1.fs (tgt ++ q) = get s.fs (tgt ++ q)) ∧ (∀ q, get s1.fs (src ++ q) = get s.fs (src ++ q)) ∧
    (∀ q, get s1.fs q = get s.fs q ∨ (q <+: tgt ∧ get s.fs q = none ∧ IsDir (get s1.fs q))) := by
  have h3 : ∀ q, get s1.fs q = get s.fs q ∨ (q <+: tgt ∧ get s.fs q = none ∧ IsDir (get s1.fs q)) := fun q =>
    (h.changes q).imp id (fun x => ⟨x.1.trans (List.dropLast_prefix tgt), x.2⟩)
  refine ⟨fun q => ?_, fun q => source_same ha (fun q _ => h3 q) q, h3⟩
  rcases h.changes (tgt ++ q) with h | h
  · exact h
  · exact absurd h.1 (not_below_dropLast ha.tgt_ne (List.prefix_append tgt q))

theorem Copied.leaf {src tgt : Path} (ha : Apart src tgt) {s s1 s2 : St} {b : Bool} (hm : Made e tgt.dropLast s true s1) (hw : WF s.fs)
    (hnd : ¬ IsDir (get s.fs src)) (h2 : WF s2.fs) (ho : OnlyAt tgt s1 s2) (harr : b = true → Arrived s.fs s2.fs src tgt)
    (ht : get s2.fs tgt ≠ get s.fs tgt → get s.fs src ≠ none)
    (hs : AllOk e → Compatible s.fs src tgt → get s.fs src ≠ none → b = true) : Copied e src tgt s b s2 := by
  obtain ⟨f1, f2, f3⟩ := hm.facts ha
  have hnone : ∀ n r, get s.fs (src ++ n :: r) = none := by
    intro n r
    have := hw.leaf (p := src) (fun w t h => hnd ⟨w, t, h⟩) n
    refine hw.below this ⟨r, by simp⟩
  have hb : ∀ n r, get s2.fs (tgt ++ n :: r) = get s.fs (tgt ++ n :: r) := by
    intro n r
    rw [ho _ (by intro h; have := congrArg List.length h; simp at this), f1]
  refine ⟨h2, fun q hq => ?_, fun hbt q => ?_, fun q hq => ?_, fun _ => ?_, hs⟩
  · rw [ho q (fun h => hq (by rw [h]; exact List.prefix_rfl))]
    exact f3 q
  · cases q with
    | nil => simpa using harr hbt
    | cons n r =>
      unfold Arrived
      rw [hnone n r]
      exact hb n r
  · cases q with
    | nil =>
      rw [List.append_nil] at hq ⊢
      exact ht hq
    | cons n r => exact absurd (hb n r) hq
  · rw [ho _ (dropLast_ne ha.tgt_ne)]
    exact hm.dir rfl

theorem copyRec_copied (he : Lists e) {d : Nat} : ∀ (k : Nat) (src tgt : Path) (s : St), Apart src tgt → Ready s.fs src tgt d →
    d ≤ k + src.length → Copied e src tgt s (copyRec e true k src tgt s).1 (copyRec e true k src tgt s).2
  | 0, src, tgt, s, _, hr, hk => by
    refine ⟨hr.wf, fun _ _ => .inl rfl, by simp [copyRec], fun q h => absurd rfl h, by simp [copyRec], fun _ _ h => ?_⟩
    have := hr.bound [] (by simpa using h)
    simp at this
    omega
  | k + 1, src, tgt, s, ha, hr, hk => by
    have hm := mkpath_made (e := e) tgt.dropLast s hr.wf
    simp only [copyRec]
    generalize mkpath e tgt.dropLast s = x at hm
    obtain ⟨b, s1⟩ := x
    dsimp only at hm ⊢
    obtain ⟨f1, f2, f3⟩ := hm.facts ha
    cases b with
    | false =>
      rw [if_pos rfl]
      refine ⟨hm.wf, fun q _ => f3 q, by simp, fun q h => absurd (f1 q) h, by simp, fun ho hc _ => ?_⟩
      refine hm.succeeds ho (fun q hq => hc.above q (hq.trans (List.dropLast_prefix tgt)) ?_)
      rintro rfl
      exact not_below_dropLast ha.tgt_ne List.prefix_rfl hq
    | true =>
      rw [if_neg (by simp)]
      have hs0 := f2 []
      have ht0 := f1 []
      simp only [List.append_nil] at hs0 ht0
      have hlt : ∀ t, get s1.fs tgt ≠ some (.link t) := fun t => by
        rw [ht0]
        have := hr.noLinks [] t
        rwa [List.append_nil] at this
      cases hg : get s.fs src with
      | none =>
        rw [hs0, hg]
        dsimp only
        obtain ⟨h1, h2⟩ := replaceFile_none (e := e) (src := src) hlt (by rw [hs0, hg])
        refine Copied.leaf ha hm hr.wf (by rw [hg]; simp [IsDir]) (by rw [h1]; exact hm.wf) (fun q _ => by rw [h1]) ?_ ?_ ?_
        · intro _
          unfold Arrived
          rw [hg]
          dsimp only
          rw [h1, ht0]
        · rw [h1, ht0]; simp
        · rw [hg]; simp
      | some n =>
        cases n with
        | link t =>
          rw [hs0, hg]
          dsimp only
          obtain ⟨h1, h2, h3, h4⟩ := createLink_spec (e := e) t hm.wf (hm.dir rfl) ha.tgt_ne
          have hnd : ¬ IsDir (get s.fs src) := by rw [hg]; simp [IsDir]
          generalize createLink e t tgt s1 = y at h1 h2 h3 h4
          obtain ⟨b, s2⟩ := y
          have hx : (if b = true then ((b, s2) : Bool × St) else (false, fail tgt s2)).1 = b := by cases b <;> rfl
          have hx2 : (if b = true then ((b, s2) : Bool × St) else (false, fail tgt s2)).2.fs = s2.fs := by cases b <;> rfl
          dsimp only at h1 h2 h3 h4 ⊢
          rw [hx]
          refine Copied.leaf ha hm hr.wf hnd (by rw [hx2]; exact h1) (fun q hq => by rw [hx2]; exact h2 q hq) ?_ ?_ ?_
          · intro hb
            unfold Arrived
            rw [hg, hx2]
            exact h3 hb
          · rw [hg]; simp
          · intro ho hc _
            refine h4 ho ?_
            rw [ht0]
            have := hc.leaf [] (by rw [List.append_nil, hg]; simp) (by rw [List.append_nil]; exact hnd)
            rwa [List.append_nil] at this
        | file c w t =>
          rw [hs0, hg]
          dsimp only
          have hnd : ¬ IsDir (get s.fs src) := by rw [hg]; simp [IsDir]
          obtain ⟨h1, h2, h3, h4⟩ := replaceFile_file (e := e) (src := src) (tgt := tgt) hm.wf (hm.dir rfl) ha.tgt_ne
            (fun h => ha.1 (by rw [h]; exact List.prefix_rfl)) hlt (by rw [hs0, hg])
          refine Copied.leaf ha hm hr.wf hnd h1 h2 ?_ ?_ ?_
          · intro hb
            unfold Arrived
            rw [hg]
            dsimp only
            rw [← ht0]
            exact h3 hb
          · rw [hg]; simp
          · intro ho hc _
            refine h4 ho ?_
            rw [ht0]
            have := hc.leaf [] (by rw [List.append_nil, hg]; simp) (by rw [List.append_nil]; exact hnd)
            rwa [List.append_nil] at this
        | dir w t =>
          rw [hs0, hg]
          dsimp only
          rw [if_pos trivial]
          have hl := eachUntil_copied (e := e) (f := copyRec e true k) ha (d := d)
            (fun n s hr => copyRec_copied he k (src ++ [n]) (tgt ++ [n]) s (ha.child n) hr (by simp; omega))
            (e.order (names s1.fs src)) s1 ((he _).nodup_iff.mpr (names_nodup _ _)) hm.wf (fun n _ =>
              ⟨hm.wf, fun q hq => by rw [List.append_assoc, f2] at hq; rw [List.append_assoc]; exact hr.bound _ hq,
                fun q t => by rw [List.append_assoc, f1]; exact hr.noLinks _ t⟩)
          have hmem : ∀ n, n ∈ e.order (names s1.fs src) ↔ get s.fs (src ++ [n]) ≠ none := by
            intro n
            rw [(he _).mem_iff, mem_names, f2]
          generalize e.order (names s1.fs src) = l at hl hmem
          generalize eachUntil (copyRec e true k) src tgt l s1 = y at hl
          obtain ⟨b, s2⟩ := y
          dsimp only at hl
          have hout : ∀ q, ¬ tgt <+: q → get s2.fs q = get s.fs q ∨ (q <+: tgt ∧ get s.fs q = none ∧ IsDir (get s2.fs q)) := by
            intro q hq
            rcases hl.outside q hq with h | ⟨h, h3, h4⟩
            · rw [h]; exact f3 q
            · rcases f3 q with h5 | ⟨h5, h6, h7⟩
              · exact .inr ⟨h, by rw [← h5, h3], h4⟩
              · exact .inr ⟨h, h6, h4⟩
          refine ⟨hl.wf, hout, ?_, ?_, ?_, ?_⟩
          · intro hb q
            cases q with
            | nil =>
              rw [List.append_nil, List.append_nil]
              unfold Arrived
              rw [hg]
              dsimp only
              constructor
              · rintro ⟨n, hn⟩
                exact hl.dir hb (List.ne_nil_of_mem ((hmem n).mpr hn))
              · intro hn
                rcases hl.self with h | h
                · rw [h, ht0]
                · exfalso
                  apply h.1
                  cases l with
                  | nil => rfl
                  | cons n l => exact absurd (hn n) ((hmem n).mp List.mem_cons_self)
            | cons n r =>
              have e1 : ∀ p : Path, p ++ n :: r = p ++ [n] ++ r := by simp
              by_cases hn : n ∈ l
              · rw [e1, e1]
                refine (hl.arrived hb n hn r).congr (fun q => ?_) ?_ rfl
                · rw [List.append_assoc, List.append_assoc, f2]
                · rw [List.append_assoc, f1]
              · unfold Arrived
                have hnn : get s.fs (src ++ [n]) = none := Decidable.byContradiction (fun h => hn ((hmem n).mpr h))
                rw [e1, hr.wf.below hnn ⟨r, rfl⟩]
                dsimp only
                rw [e1, hl.others n r hn, List.append_assoc, f1]
          · intro q hq
            cases q with
            | nil => rw [List.append_nil, hg]; simp
            | cons n r =>
              have e1 : ∀ p : Path, p ++ n :: r = p ++ [n] ++ r := by simp
              rw [e1] at hq ⊢
              have := hl.touched n r (by rw [List.append_assoc, f1, ← List.append_assoc]; exact hq)
              rwa [List.append_assoc, f2, ← List.append_assoc] at this
          · intro _
            have hnp : ¬ tgt <+: tgt.dropLast := fun h => not_below_dropLast ha.tgt_ne h List.prefix_rfl
            rcases hl.outside _ hnp with h | h
            · rw [h]; exact hm.dir rfl
            · exact h.2.2
          · intro ho hc _
            refine hl.succeeds ho (fun n hn => ⟨⟨fun q hq hqne => ?_, fun q => ?_, fun q => ?_⟩, ?_⟩)
            · have hqt : q <+: tgt := by
                rcases List.prefix_or_prefix_of_prefix hq (prefix_child tgt n) with h' | ⟨r, hr'⟩
                · exact h'
                · obtain ⟨r2, hr2⟩ := hq
                  cases r with
                  | nil => rw [List.append_nil] at hr'; rw [← hr']; exact List.prefix_rfl
                  | cons a r =>
                    exfalso
                    apply hqne
                    rw [← hr', List.append_assoc] at hr2
                    have := List.append_cancel_left hr2
                    simp only [List.cons_append, List.cons.injEq, List.append_eq_nil_iff] at this
                    rw [← hr', this.1, this.2.1]
              rcases f3 q with h | h
              · rw [h]
                by_cases hqe : q = tgt
                · subst hqe
                  have := hc.dir [] (by rw [List.append_nil, hg]; exact ⟨w, t, rfl⟩)
                  rwa [List.append_nil] at this
                · exact hc.above q hqt hqe
              · exact .inr h.2.2
            · rw [List.append_assoc, f2, List.append_assoc, f1]; exact hc.leaf _
            · rw [List.append_assoc, f2, List.append_assoc, f1]; exact hc.dir _
            · rw [f2]; exact (hmem n).mp hn

end Verif.Files
