import Verif.Present.Spec

/-! # C69: which modules are present -/

namespace Verif.Present
open Verif.Version

/-! ## What the loops change -/

theorem setupError_gone {m : Mod} {s : St} : ∀ x ∈ (setupError m s).gone, x ∈ s.gone ∨ x = m.id := by
  unfold setupError
  split
  · exact fun x hx => Or.inl hx
  · intro x hx; simp only [List.mem_cons] at hx; exact hx.symm

theorem setupError_mono {m : Mod} {s : St} : ∀ x ∈ s.gone, x ∈ (setupError m s).gone := by
  unfold setupError
  split <;> simp
  intro a ha; exact Or.inr ha

theorem probe_gone {e : Env} {m : Mod} {s : St} : ∀ x ∈ (probe e m s).gone, x ∈ s.gone ∨ x = m.id := by
  unfold probe
  split
  · exact fun x hx => Or.inl hx
  · split
    · intro x hx; simp only [List.mem_cons] at hx; exact hx.symm
    · split
      · exact fun x hx => Or.inl hx
      · exact setupError_gone

theorem probe_mono {e : Env} {m : Mod} {s : St} : ∀ x ∈ s.gone, x ∈ (probe e m s).gone := by
  unfold probe
  split
  · exact fun x hx => hx
  · split
    · intro x hx; simp [hx]
    · split
      · exact fun x hx => hx
      · exact setupError_mono

theorem probeAll_gone {e : Env} : ∀ {l : List Mod} {s : St}, ∀ x ∈ (probeAll e l s).gone, x ∈ s.gone ∨ x ∈ l.map (·.id)
  | [], _, x, hx => Or.inl hx
  | m :: l, s, x, hx => by
    unfold probeAll at hx
    simp only at hx
    have h1 : x ∈ (probe e m s).gone → x ∈ s.gone ∨ x ∈ (m :: l).map (·.id) := by
      intro h
      rcases probe_gone x h with h | h
      · exact Or.inl h
      · exact Or.inr (by simp [h])
    split at hx
    · exact h1 hx
    · rcases probeAll_gone x hx with h | h
      · exact h1 h
      · exact Or.inr (by simp only [List.map_cons, List.mem_cons]; exact Or.inr h)

theorem probeAll_mono {e : Env} : ∀ {l : List Mod} {s : St}, ∀ x ∈ s.gone, x ∈ (probeAll e l s).gone
  | [], _, _, hx => hx
  | m :: l, s, x, hx => by
    unfold probeAll
    simp only
    split
    · exact probe_mono x hx
    · exact probeAll_mono x (probe_mono x hx)

theorem validate_gone {e : Env} {m : Mod} {s : St} : ∀ x ∈ (validate e m s).2.gone, x ∈ s.gone ∨ x = m.id := by
  unfold validate
  split
  · exact fun x hx => Or.inl hx
  · split
    · exact fun x hx => Or.inl hx
    · exact setupError_gone

theorem validate_mono {e : Env} {m : Mod} {s : St} : ∀ x ∈ s.gone, x ∈ (validate e m s).2.gone := by
  unfold validate
  split
  · exact fun x hx => hx
  · split
    · exact fun x hx => hx
    · exact setupError_mono

theorem validateAll_gone {e : Env} : ∀ {l : List Mod} {s : St}, ∀ x ∈ (validateAll e l s).2.gone, x ∈ s.gone ∨ x ∈ l.map (·.id)
  | [], _, x, hx => Or.inl hx
  | m :: l, s, x, hx => by
    unfold validateAll at hx
    simp only at hx
    have h1 : x ∈ (validate e m s).2.gone → x ∈ s.gone ∨ x ∈ (m :: l).map (·.id) := by
      intro h
      rcases validate_gone x h with h | h
      · exact Or.inl h
      · exact Or.inr (by simp [h])
    split at hx
    · rcases validateAll_gone x hx with h | h
      · exact h1 h
      · exact Or.inr (by simp only [List.map_cons, List.mem_cons]; exact Or.inr h)
    · exact h1 hx

theorem validateAll_mono {e : Env} : ∀ {l : List Mod} {s : St}, ∀ x ∈ s.gone, x ∈ (validateAll e l s).2.gone
  | [], _, _, hx => hx
  | m :: l, s, x, hx => by
    unfold validateAll
    simp only
    split
    · exact validateAll_mono x (validate_mono x hx)
    · exact validate_mono x hx

theorem update_mono {ms : List Mod} {m : Mod} {s : St} : ∀ x ∈ s.gone, x ∈ (update ms m s).gone := by
  unfold update
  intro x hx
  repeat' split
  all_goals simp [hx]

theorem updateAll_mono {ms : List Mod} : ∀ {l : List Mod} {s : St}, ∀ x ∈ s.gone, x ∈ (updateAll ms l s).gone
  | [], _, _, hx => hx
  | m :: l, s, x, hx => by unfold updateAll; exact updateAll_mono x (update_mono x hx)

theorem update_gone {ms : List Mod} {m : Mod} {s : St} : ∀ x ∈ (update ms m s).gone, x ∈ s.gone ∨ x = m.id := by
  unfold update
  intro x hx
  split at hx
  · exact Or.inl hx
  · split at hx
    · exact Or.inl hx
    · split at hx
      · exact Or.inl hx
      · simp only [List.mem_cons] at hx; exact hx.symm

theorem updateAll_gone {ms : List Mod} : ∀ {l : List Mod} {s : St}, ∀ x ∈ (updateAll ms l s).gone, x ∈ s.gone ∨ x ∈ l.map (·.id)
  | [], _, _, hx => Or.inl hx
  | m :: l, s, x, hx => by
    unfold updateAll at hx
    rcases updateAll_gone x hx with h | h
    · rcases update_gone x h with h | h
      · exact Or.inl h
      · exact Or.inr (by simp [h])
    · exact Or.inr (by simp only [List.map_cons, List.mem_cons]; exact Or.inr h)

theorem update_errors {ms : List Mod} {m : Mod} {s : St} : (update ms m s).errors = s.errors := by
  unfold update
  repeat' split
  all_goals rfl

theorem updateAll_errors {ms : List Mod} : ∀ {l : List Mod} {s : St}, (updateAll ms l s).errors = s.errors
  | [], _ => rfl
  | m :: l, s => by unfold updateAll; rw [updateAll_errors, update_errors]

theorem setupError_errors {m : Mod} {s : St} : (setupError m s).errors = s.errors ∨ (setupError m s).errors = s.errors ++ [m.id] := by
  unfold setupError
  split <;> simp

theorem validate_errors {e : Env} {m : Mod} {s : St} (h : (validate e m s).2.errors = []) : s.errors = [] ∧ (validate e m s).1 = true := by
  unfold validate at h ⊢
  split
  · rename_i hg; rw [if_pos hg] at h; exact ⟨h, rfl⟩
  · rename_i hg
    rw [if_neg hg] at h
    split
    · rename_i hv; rw [if_pos hv] at h; exact ⟨h, rfl⟩
    · rename_i hv
      rw [if_neg hv] at h
      simp only at h
      refine ⟨?_, by simpa using h⟩
      rcases setupError_errors (m := m) (s := s) with h1 | h1
      · rw [← h1]; exact h
      · rw [h1] at h; simp at h

theorem validateAll_errors {e : Env} : ∀ {l : List Mod} {s : St}, (validateAll e l s).2.errors = [] → s.errors = [] ∧ (validateAll e l s).1 = true
  | [], _, h => ⟨h, rfl⟩
  | m :: l, s, h => by
    unfold validateAll at h ⊢
    simp only at h ⊢
    split at h
    · rename_i hc
      obtain ⟨h1, h2⟩ := validateAll_errors h
      rw [if_pos hc]
      exact ⟨(validate_errors h1).1, h2⟩
    · rename_i hc
      exact absurd (validate_errors h).2 hc

/-! ## What holds of those that are left -/

theorem probeAll_left {e : Env} : ∀ {l : List Mod} {s : St}, (probeAll e l s).errors = [] → ∀ m ∈ l, m.id ∉ (probeAll e l s).gone →
    m.disabled = false ∧ ∃ g, e.probes m.id g = true ∧ m.range.accepts (e.version m.id g) = true
  | [], _, _, m, hm, _ => by simp at hm
  | x :: l, s, h, m, hm, hg => by
    unfold probeAll at h hg
    simp only at h hg
    split at h
    · rename_i hc; exact absurd h hc
    · rename_i hc
      rw [if_neg hc] at hg
      rcases List.mem_cons.mp hm with rfl | hm
      · have hg' : m.id ∉ (probe e m s).gone := fun h => hg (probeAll_mono _ h)
        have hc' : (probe e m s).errors = [] := by
          apply Classical.byContradiction
          exact fun h => hc h
        unfold probe at hg' hc'
        split at hg'
        · rename_i h1; exact absurd (by simpa using h1) hg'
        · rename_i h1
          rw [if_neg h1] at hc'
          split at hg'
          · simp at hg'
          · rename_i h2
            rw [if_neg h2] at hc'
            split at hg'
            · rename_i h3
              simp only [Bool.and_eq_true] at h3
              exact ⟨by simpa using h2, s.gone, h3⟩
            · rename_i h3
              rw [if_neg h3] at hc'
              unfold setupError at hg' hc'
              split at hg'
              · rename_i h4; rw [if_pos h4] at hc'; simp at hc'
              · simp at hg'
      · exact probeAll_left h m hm hg

theorem validateAll_left {e : Env} : ∀ {a b : List Mod} {m : Mod} {s : St}, (validateAll e (a ++ m :: b) s).2.errors = [] →
    m.id ∉ (validateAll e (a ++ m :: b) s).2.gone → ∃ g, (∀ x ∈ s.gone, x ∈ g) ∧ e.valid m.id g = true ∧
      (∀ x, x ∈ g → x ∈ s.gone ∨ x ∈ a.map (·.id)) ∧ (∀ x ∈ (validateAll e (a ++ m :: b) s).2.gone, x ∈ g ∨ x ∈ (m :: b).map (·.id)) ∧
      ∀ i, (i, true) ∈ m.locals → i ∉ g
  | [], b, m, s, h, hg => by
    rw [List.nil_append] at h hg ⊢
    refine ⟨s.gone, fun x hx => hx, ?_⟩
    have h0 := validateAll_gone (e := e) (l := m :: b) (s := s)
    unfold validateAll at h hg
    simp only at h hg
    have hcont : (validate e m s).1 = true := by
      split at h
      · assumption
      · exact (validate_errors h).2
    rw [if_pos hcont] at h hg
    have hm : m.id ∉ (validate e m s).2.gone := fun hx => hg (validateAll_mono _ hx)
    have he := (validateAll_errors h).1
    unfold validate at hm he
    split at hm
    · rename_i h1; exact absurd (by simpa using h1) hm
    · rename_i h1
      rw [if_neg h1] at he
      split at hm
      · rename_i h2
        simp only [Bool.and_eq_true, List.all_eq_true] at h2
        refine ⟨h2.1, fun x hx => Or.inl hx, h0, fun i hi => ?_⟩
        have := h2.2 _ hi
        simpa using this
      · rename_i h2
        rw [if_neg h2] at he
        simp only at hm he
        unfold setupError at hm he
        split at hm
        · rename_i h3; rw [if_pos h3] at he; simp at he
        · simp at hm
  | y :: a, b, m, s, h, hg => by
    rw [List.cons_append] at h hg ⊢
    unfold validateAll at h hg ⊢
    simp only at h hg ⊢
    have hcont : (validate e y s).1 = true := by
      split at h
      · assumption
      · exact (validate_errors h).2
    rw [if_pos hcont] at h hg ⊢
    obtain ⟨g, h1, h2, h3, h4, h5⟩ := validateAll_left h hg
    refine ⟨g, fun x hx => h1 x (validate_mono x hx), h2, fun x hx => ?_, h4, h5⟩
    rcases h3 x hx with h | h
    · rcases validate_gone x h with h | h
      · exact Or.inl h
      · exact Or.inr (by simp [h])
    · exact Or.inr (by simp only [List.map_cons, List.mem_cons]; exact Or.inr h)

/-- What has been decided about a module, in reverse order -/
theorem updateAll_left {ms : List Mod} : ∀ {l1 l2 : List Mod} {m : Mod} {s : St}, ∃ s', (∀ x ∈ s.gone, x ∈ s'.gone) ∧
    (∀ x ∈ s'.gone, x ∈ (updateAll ms (l1 ++ m :: l2) s).gone) ∧ (∀ x ∈ (updateAll ms (l1 ++ m :: l2) s).gone, x ∈ s'.gone ∨ x ∈ (m :: l2).map (·.id)) ∧
    (∀ x ∈ s'.gone, x ∈ s.gone ∨ x ∈ l1.map (·.id)) ∧
    ∃ s'', s'' = update ms m s' ∧ (∀ x ∈ s''.gone, x ∈ (updateAll ms (l1 ++ m :: l2) s).gone) ∧
      ∀ x ∈ (updateAll ms (l1 ++ m :: l2) s).gone, x ∈ s''.gone ∨ x ∈ l2.map (·.id)
  | [], l2, m, s => by
    refine ⟨s, fun _ h => h, fun x hx => updateAll_mono (l := m :: l2) x hx, fun x hx => ?_, fun _ h => Or.inl h, update ms m s, rfl, ?_, ?_⟩
    · exact updateAll_gone (l := m :: l2) x hx
    · intro x hx; exact updateAll_mono (s := update ms m s) x hx
    · intro x hx; exact updateAll_gone (s := update ms m s) x hx
  | y :: l1, l2, m, s => by
    obtain ⟨s', h1, h2, h3, h4, s'', h5, h6, h7⟩ := updateAll_left (ms := ms) (l1 := l1) (l2 := l2) (m := m) (s := update ms y s)
    refine ⟨s', fun x hx => h1 x (update_mono x hx), h2, h3, fun x hx => ?_, s'', h5, h6, h7⟩
    rcases h4 x hx with h | h
    · rcases update_gone x h with h | h
      · exact Or.inl h
      · exact Or.inr (by simp [h])
    · exact Or.inr (by simp only [List.map_cons, List.mem_cons]; exact Or.inr h)

/-! ## Runs without errors -/

theorem run_ok {e : Env} {ms : List Mod} {absent : List Nat} (h : (run e ms absent).errors = []) :
    (probeAll e ms { gone := absent, errors := [] }).errors = [] ∧ (validateAll e ms (probeAll e ms { gone := absent, errors := [] })).2.errors = [] ∧
      run e ms absent = updateAll ms ms.reverse (validateAll e ms (probeAll e ms { gone := absent, errors := [] })).2 := by
  unfold run at h ⊢
  simp only at h ⊢
  have he : (validateAll e ms (probeAll e ms { gone := absent, errors := [] })).2.errors = [] := by
    split at h
    · rw [updateAll_errors] at h; exact h
    · exact h
  obtain ⟨h1, h2⟩ := validateAll_errors he
  exact ⟨h1, he, by rw [if_pos h2]⟩

theorem id_unique {ms a b : List Mod} {m d : Mod} (h : (ms.map (·.id)).Nodup) (hab : ms = a ++ m :: b) (hd : d ∈ a) : d.id ∉ (m :: b).map (·.id) := by
  rw [hab, List.map_append, List.nodup_append] at h
  intro hx
  exact h.2.2 d.id (List.mem_map_of_mem hd) d.id (by simpa using hx) rfl

theorem eq_of_id {ms : List Mod} (h : (ms.map (·.id)).Nodup) {a b : Mod} (ha : a ∈ ms) (hb : b ∈ ms) (hid : a.id = b.id) : a = b := by
  induction ms with
  | nil => simp at ha
  | cons x l ih =>
    rw [List.map_cons, List.nodup_cons] at h
    rcases List.mem_cons.mp ha with h1 | h1 <;> rcases List.mem_cons.mp hb with h2 | h2
    · rw [h1, h2]
    · exact absurd (List.mem_map.mpr ⟨b, h2, by rw [← hid, h1]⟩) h.1
    · exact absurd (List.mem_map.mpr ⟨a, h1, by rw [hid, h2]⟩) h.1
    · exact ih h.2 h1 h2

theorem not_disabled {ms : List Mod} (h : (ms.map (·.id)).Nodup) {m : Mod} (hm : m ∈ ms) (hd : m.disabled = false) :
    ms.any (fun x => decide (x.id = m.id) && x.disabled) = false := by
  rw [List.any_eq_false]
  intro x hx
  simp only [Bool.and_eq_true, decide_eq_true_eq, not_and]
  intro hid
  rw [eq_of_id h hx hm hid, hd]
  simp

/-- **C69.** If there is no error, then a module that is present has everything it requires: the modules its `Depends` items require
are present as well. -/
theorem C69_complete {e : Env} {ms : List Mod} {absent : List Nat} (hw : WF ms) (h : (run e ms absent).errors = []) :
    ∀ m ∈ ms, Present (run e ms absent) m → ∀ i, (i, true) ∈ m.locals → ∃ d ∈ ms, d.id = i ∧ Present (run e ms absent) d := by
  intro m hm hp i hi
  obtain ⟨h1, h2, h3⟩ := run_ok h
  obtain ⟨a, b, hab⟩ := List.append_of_mem hm
  obtain ⟨d, hd, hid, hl⟩ := hw.first a m b hab _ hi
  have hdm : d ∈ ms := by rw [hab]; simp [hd]
  refine ⟨d, hdm, hid, ?_⟩
  unfold Present at hp ⊢
  -- the validation of the module
  have hpv : m.id ∉ (validateAll e ms (probeAll e ms { gone := absent, errors := [] })).2.gone := fun hx => hp (by rw [h3]; exact updateAll_mono _ hx)
  have hpp : m.id ∉ (probeAll e ms { gone := absent, errors := [] }).gone := fun hx => hpv (validateAll_mono _ hx)
  have hmd := (probeAll_left h1 m hm hpp).1
  have hv := validateAll_left (e := e) (a := a) (b := b) (m := m) (s := probeAll e ms { gone := absent, errors := [] })
  rw [← hab] at hv
  obtain ⟨g, _, _, _, h4, h5⟩ := hv h2 hpv
  have hdg : d.id ∉ (validateAll e ms (probeAll e ms { gone := absent, errors := [] })).2.gone := by
    intro hx
    rcases h4 _ hx with hx | hx
    · rw [hid] at hx; exact h5 i hi hx
    · exact id_unique hw.ids hab hd hx
  -- the update
  obtain ⟨a1, a2, ha⟩ := List.append_of_mem hd
  have hsplit : ms.reverse = (b.reverse ++ m :: a2.reverse) ++ d :: a1.reverse := by rw [hab, ha]; simp
  rw [h3, hsplit]
  obtain ⟨s', _, h6, h7, h8, s'', h9, h10, h11⟩ := updateAll_left (ms := ms) (l1 := b.reverse ++ m :: a2.reverse) (l2 := a1.reverse) (m := d)
    (s := (validateAll e ms (probeAll e ms { gone := absent, errors := [] })).2)
  intro hx
  have hms' : m.id ∉ s'.gone := by
    intro hx
    refine hp ?_
    rw [h3, hsplit]
    exact h6 _ hx
  have hds' : d.id ∉ s'.gone := by
    intro hx
    rcases h8 _ hx with h | h
    · exact hdg h
    · have hnd := hw.ids
      rw [hab, ha] at hnd
      simp only [List.map_append, List.map_cons, List.append_assoc, List.cons_append, List.nodup_append, List.nodup_cons, List.mem_append, List.mem_cons,
        List.map_reverse, List.mem_reverse] at h hnd
      rcases h with h | h | h
      · exact hnd.2.1.1 (Or.inr (Or.inr h))
      · exact hnd.2.1.1 (Or.inr (Or.inl h))
      · exact hnd.2.1.1 (Or.inl h)
  rcases h11 _ hx with h | h
  · rw [h9] at h
    unfold update at h
    rw [if_neg (by simpa using hds')] at h
    split at h
    · exact hds' h
    · rename_i hq
      rw [if_pos] at h
      · exact hds' h
      · rcases hl with hl | hl
        · exact absurd hl hq
        · refine List.any_eq_true.mpr ⟨_, hl, ?_⟩
          rw [counts, not_disabled hw.ids hm hmd]
          simp [hms']
  · have hnd := hw.ids
    rw [hab, ha] at hnd
    simp only [List.map_append, List.map_cons, List.append_assoc, List.cons_append, List.nodup_append, List.mem_cons, List.map_reverse, List.mem_reverse] at h hnd
    exact hnd.2.2 d.id h d.id (Or.inl rfl) rfl

/-- **C69.** If there is no error, then a module that is present is not from a disabled product, its probes and its validation
have succeeded, and its version was found to be in the range. -/
theorem C69_checked {e : Env} {ms : List Mod} {absent : List Nat} (h : (run e ms absent).errors = []) :
    ∀ m ∈ ms, Present (run e ms absent) m → m.id ∉ absent ∧ m.disabled = false ∧
      (∃ g, e.probes m.id g = true ∧ m.range.accepts (e.version m.id g) = true) ∧ ∃ g, e.valid m.id g = true := by
  intro m hm hp
  obtain ⟨h1, h2, h3⟩ := run_ok h
  obtain ⟨a, b, hab⟩ := List.append_of_mem hm
  unfold Present at hp
  have hpv : m.id ∉ (validateAll e ms (probeAll e ms { gone := absent, errors := [] })).2.gone := fun hx => hp (by rw [h3]; exact updateAll_mono _ hx)
  have hpp : m.id ∉ (probeAll e ms { gone := absent, errors := [] }).gone := fun hx => hpv (validateAll_mono _ hx)
  obtain ⟨h4, h5⟩ := probeAll_left h1 m hm hpp
  have hv := validateAll_left (e := e) (a := a) (b := b) (m := m) (s := probeAll e ms { gone := absent, errors := [] })
  rw [← hab] at hv
  obtain ⟨g, _, h6, _⟩ := hv h2 hpv
  exact ⟨fun hx => hpp (probeAll_mono _ hx), h4, h5, g, h6⟩

/-- **C69.** If there is no error, then the product needs every module that is present, by way of modules that are present. -/
theorem C69_imported {e : Env} {ms : List Mod} {absent : List Nat} (hw : WF ms) (h : (run e ms absent).errors = []) :
    ∀ m ∈ ms, Present (run e ms absent) m → Imported ms (run e ms absent) m := by
  obtain ⟨h1, h2, h3⟩ := run_ok h
  have main : ∀ n, ∀ a m b, ms = a ++ m :: b → b.length = n → Present (run e ms absent) m → Imported ms (run e ms absent) m := by
    intro n
    induction n using Nat.strongRecOn with
    | _ n ih =>
      intro a m b hab hn hp
      by_cases hq : m.name.head? = some "qbs"
      · exact .base hq
      have hm : m ∈ ms := by rw [hab]; simp
      have hsplit : ms.reverse = b.reverse ++ m :: a.reverse := by rw [hab]; simp
      obtain ⟨s', h5, h6, h7, h8, s'', h9, h10, h11⟩ := updateAll_left (ms := ms) (l1 := b.reverse) (l2 := a.reverse) (m := m)
        (s := (validateAll e ms (probeAll e ms { gone := absent, errors := [] })).2)
      rw [← hsplit, ← h3] at h6 h7 h10 h11
      have hps : m.id ∉ s'.gone := fun hx => hp (h6 _ hx)
      have hps'' : m.id ∉ s''.gone := fun hx => hp (h10 _ hx)
      rw [h9] at hps''
      unfold update at hps''
      rw [if_neg (by simpa using hps), if_neg hq] at hps''
      split at hps''
      · rename_i hany
        obtain ⟨l, hl, hc⟩ := List.any_eq_true.mp hany
        cases l with
        | product => exact .direct hl
        | module i =>
          obtain ⟨d, hd, rfl⟩ := hw.order a m b hab i hl
          have hdm : d ∈ ms := by rw [hab]; simp [hd]
          obtain ⟨b1, b2, hb⟩ := List.append_of_mem hd
          have hpd : Present (run e ms absent) d := by
            intro hx
            simp only [counts, Bool.and_eq_true, Bool.not_eq_true', List.contains_eq_mem, decide_eq_false_iff_not] at hc
            rcases h7 _ hx with hx | hx
            · exact hc.1 hx
            · have hnd := hw.ids
              rw [hab, hb] at hnd
              simp only [List.map_append, List.map_cons, List.nodup_append, List.nodup_cons, List.mem_append, List.mem_cons, List.map_reverse, List.mem_reverse] at hx hnd
              rcases hx with hx | hx
              · exact hnd.2.1.1 (Or.inr (Or.inl hx.symm))
              · exact hnd.2.2 d.id hx d.id (Or.inr (Or.inr (Or.inl rfl))) rfl
          refine .indirect hdm hpd (ih b2.length ?_ (a ++ m :: b1) d b2 (by rw [hab, hb]; simp) rfl hpd) hl
          rw [← hn, hb]; simp only [List.length_append, List.length_cons]; omega
      · simp at hps''
  intro m hm hp
  obtain ⟨a, b, hab⟩ := List.append_of_mem hm
  exact main _ a m b hab rfl hp

/-! ## What stays -/

theorem healthy_probe {e : Env} {ms : List Mod} {absent : List Nat} {m x : Mod} (hw : (ms.map (·.id)).Nodup) (hm : m ∈ ms) (hx : x ∈ ms)
    (h : Healthy e ms absent m) {s : St} (hs : m.id ∉ s.gone) : m.id ∉ (probe e x s).gone := by
  intro hg
  rcases probe_gone _ hg with h1 | h1
  · exact hs h1
  · have := eq_of_id hw hm hx h1
    subst this
    cases h with
    | intro h2 h3 h4 h5 h6 =>
      unfold probe at hg
      rw [if_neg (by simpa using hs), h3] at hg
      simp only [Bool.false_eq_true, if_false, (h4 s.gone).1, (h4 s.gone).2.1, Bool.and_self, if_true] at hg
      exact hs hg

theorem healthy_probeAll {e : Env} {ms : List Mod} {absent : List Nat} {m : Mod} (hw : (ms.map (·.id)).Nodup) (hm : m ∈ ms) (h : Healthy e ms absent m) :
    ∀ {l : List Mod} {s : St}, (∀ x ∈ l, x ∈ ms) → m.id ∉ s.gone → m.id ∉ (probeAll e l s).gone
  | [], _, _, hs => hs
  | x :: l, s, hl, hs => by
    have h1 := healthy_probe hw hm (hl x (by simp)) h hs
    unfold probeAll
    simp only
    split
    · exact h1
    · exact healthy_probeAll hw hm h (fun y hy => hl y (by simp [hy])) h1

/-- No healthy module is lost. -/
def AllHealthy (e : Env) (ms : List Mod) (absent : List Nat) (s : St) : Prop := ∀ m ∈ ms, Healthy e ms absent m → m.id ∉ s.gone

theorem healthy_validate {e : Env} {ms : List Mod} {absent : List Nat} {x : Mod} (hw : (ms.map (·.id)).Nodup) (hx : x ∈ ms)
    {s : St} (hs : AllHealthy e ms absent s) : AllHealthy e ms absent (validate e x s).2 := by
  intro m hm h hg
  rcases validate_gone _ hg with h1 | h1
  · exact hs m hm h h1
  · have := eq_of_id hw hm hx h1
    subst this
    have hmg := hs m hm h
    cases h with
    | intro h2 h3 h4 h5 h6 =>
      unfold validate at hg
      have hall : m.locals.all (fun x => !x.2 || !s.gone.contains x.1) = true := by
        rw [List.all_eq_true]
        rintro ⟨i, r⟩ hi
        cases r with
        | false => rfl
        | true =>
          obtain ⟨d, hd, rfl⟩ := h5 i hi
          simpa using hs d hd (h6 d hd hi)
      rw [if_neg (by simpa using hmg), hall, (h4 s.gone).2.2] at hg
      simp only [Bool.and_self, if_true] at hg
      exact hmg hg

theorem healthy_validateAll {e : Env} {ms : List Mod} {absent : List Nat} (hw : (ms.map (·.id)).Nodup) :
    ∀ {l : List Mod} {s : St}, (∀ x ∈ l, x ∈ ms) → AllHealthy e ms absent s → AllHealthy e ms absent (validateAll e l s).2
  | [], _, _, hs => hs
  | x :: l, s, hl, hs => by
    have h1 := healthy_validate hw (hl x (by simp)) hs
    unfold validateAll
    simp only
    split
    · exact healthy_validateAll hw (fun y hy => hl y (by simp [hy])) h1
    · exact h1

theorem wanted_updateAll {e : Env} {ms : List Mod} {absent : List Nat} (hw : (ms.map (·.id)).Nodup) :
    ∀ {l : List Mod} {s : St}, (∀ x ∈ l, x ∈ ms) → (∀ m ∈ ms, Healthy e ms absent m → Wanted e ms absent m → m.id ∉ s.gone) →
      ∀ m ∈ ms, Healthy e ms absent m → Wanted e ms absent m → m.id ∉ (updateAll ms l s).gone
  | [], _, _, hs => hs
  | x :: l, s, hl, hs => by
    unfold updateAll
    refine wanted_updateAll hw (fun y hy => hl y (by simp [hy])) ?_
    intro m hm h hwt hg
    rcases update_gone _ hg with h1 | h1
    · exact hs m hm h hwt h1
    · have := eq_of_id hw hm (hl x (by simp)) h1
      subst this
      have hmg := hs m hm h hwt
      unfold update at hg
      rw [if_neg (by simpa using hmg)] at hg
      split at hg
      · exact hmg hg
      · rw [if_pos] at hg
        · exact hmg hg
        · cases hwt with
          | direct hp => exact List.any_eq_true.mpr ⟨_, hp, rfl⟩
          | indirect hd hdh hdw hl =>
            refine List.any_eq_true.mpr ⟨_, hl, ?_⟩
            rename_i d
            have hdd : d.disabled = false := by cases hdh with | intro _ h3 _ _ _ => exact h3
            rw [counts, not_disabled hw hd hdd]
            simp [hs d hd hdh hdw]

/-- **C69.** A module stays present if nothing is wrong with it and with those it requires, and if the product needs it by way of
such modules. Whatever happens to the others. -/
theorem C69_kept {e : Env} {ms : List Mod} {absent : List Nat} (hw : (ms.map (·.id)).Nodup) : ∀ m ∈ ms, Healthy e ms absent m → Wanted e ms absent m →
    Present (run e ms absent) m := by
  have h1 : AllHealthy e ms absent (probeAll e ms { gone := absent, errors := [] }) := by
    intro m hm h
    refine healthy_probeAll hw hm h (fun _ h => h) ?_
    cases h with | intro h2 _ _ _ _ => exact h2
  have h2 := healthy_validateAll (e := e) hw (fun _ h => h) h1
  intro m hm h hwt
  unfold Present run
  simp only
  split
  · exact wanted_updateAll hw (by simp) (fun m hm h _ => h2 m hm h) m hm h hwt
  · exact h2 m hm h

/-! ## Required modules -/

/-- **C69.** If there is no error, all required modules are present, provided that they are there to begin with and not from
disabled products, and that each is required by the product or by another required one. -/
theorem C69_required {e : Env} {ms : List Mod} {absent : List Nat} (hw : WF ms) (h : (run e ms absent).errors = [])
    (hthere : ∀ m ∈ ms, m.required = true → m.id ∉ absent ∧ m.disabled = false)
    (hreq : ∀ m ∈ ms, m.required = true → m.name.head? ≠ some "qbs" →
      Loader.product ∈ m.loaders ∨ ∃ d ∈ ms, d.required = true ∧ Loader.module d.id ∈ m.loaders) :
    ∀ m ∈ ms, m.required = true → Present (run e ms absent) m := by
  obtain ⟨h1, h2, h3⟩ := run_ok h
  -- a required one is not lost by probes and scripts
  have hset : ∀ {m x : Mod} {s : St}, m ∈ ms → x ∈ ms → m.required = true → m.id ∉ s.gone → m.id ∉ (setupError x s).gone := by
    intro m x s hm hx hr hs hg
    rcases setupError_gone _ hg with h | h
    · exact hs h
    · have := eq_of_id hw.ids hm hx h
      subst this
      unfold setupError at hg
      rw [if_pos hr] at hg
      exact hs hg
  have hpr : ∀ l s, (∀ x ∈ l, x ∈ ms) → (∀ m ∈ ms, m.required = true → m.id ∉ s.gone) → ∀ m ∈ ms, m.required = true → m.id ∉ (probeAll e l s).gone := by
    intro l
    induction l with
    | nil => exact fun s _ hs => hs
    | cons x l ih =>
      intro s hl hs
      have hx : ∀ m ∈ ms, m.required = true → m.id ∉ (probe e x s).gone := by
        intro m hm hr
        unfold probe
        split
        · exact hs m hm hr
        · split
          · rename_i hd
            intro hg
            rcases List.mem_cons.mp hg with hg | hg
            · have := eq_of_id hw.ids hm (hl x (by simp)) hg
              subst this
              rw [(hthere m hm hr).2] at hd; cases hd
            · exact hs m hm hr hg
          · split
            · exact hs m hm hr
            · exact hset hm (hl x (by simp)) hr (hs m hm hr)
      unfold probeAll
      simp only
      split
      · exact hx
      · exact ih _ (fun y hy => hl y (by simp [hy])) hx
  have hva : ∀ l s, (∀ x ∈ l, x ∈ ms) → (∀ m ∈ ms, m.required = true → m.id ∉ s.gone) → ∀ m ∈ ms, m.required = true → m.id ∉ (validateAll e l s).2.gone := by
    intro l
    induction l with
    | nil => exact fun s _ hs => hs
    | cons x l ih =>
      intro s hl hs
      have hx : ∀ m ∈ ms, m.required = true → m.id ∉ (validate e x s).2.gone := by
        intro m hm hr
        unfold validate
        split
        · exact hs m hm hr
        · split
          · exact hs m hm hr
          · exact hset hm (hl x (by simp)) hr (hs m hm hr)
      unfold validateAll
      simp only
      split
      · exact ih _ (fun y hy => hl y (by simp [hy])) hx
      · exact hx
  have hup : ∀ l s, (∀ x ∈ l, x ∈ ms) → (∀ m ∈ ms, m.required = true → m.id ∉ s.gone) → ∀ m ∈ ms, m.required = true → m.id ∉ (updateAll ms l s).gone := by
    intro l
    induction l with
    | nil => exact fun s _ hs => hs
    | cons x l ih =>
      intro s hl hs
      unfold updateAll
      refine ih _ (fun y hy => hl y (by simp [hy])) ?_
      intro m hm hr hg
      rcases update_gone _ hg with h | h
      · exact hs m hm hr h
      · have := eq_of_id hw.ids hm (hl x (by simp)) h
        subst this
        have hmg := hs m hm hr
        unfold update at hg
        rw [if_neg (by simpa using hmg)] at hg
        split at hg
        · exact hmg hg
        · rename_i hq
          rw [if_pos] at hg
          · exact hmg hg
          · rcases hreq m hm hr hq with h | ⟨d, hd, hdr, hl⟩
            · exact List.any_eq_true.mpr ⟨_, h, rfl⟩
            · refine List.any_eq_true.mpr ⟨_, hl, ?_⟩
              rw [counts, not_disabled hw.ids hd (hthere d hd hdr).2]
              simp [hs d hd hdr]
  intro m hm hr
  unfold Present
  rw [h3]
  exact hup _ _ (by simp) (hva _ _ (fun _ h => h) (hpr _ _ (fun _ h => h) (fun m hm hr => (hthere m hm hr).1))) m hm hr

/-- Something is wrong with a module, in view of what is not present. -/
def Faulty (e : Env) (m : Mod) : Prop :=
  ∃ g, e.probes m.id g = false ∨ m.range.accepts (e.version m.id g) = false ∨ e.valid m.id g = false ∨ ∃ i ∈ g, (i, true) ∈ m.locals

theorem setupError_mem {m : Mod} {s : St} : ∀ x ∈ (setupError m s).errors, x ∈ s.errors ∨ (x = m.id ∧ m.required = true) := by
  unfold setupError
  split
  · rename_i h
    intro x hx
    simp only [List.mem_append, List.mem_singleton] at hx
    rcases hx with hx | hx
    · exact Or.inl hx
    · exact Or.inr ⟨hx, h⟩
  · exact fun x hx => Or.inl hx

/-- **C69.** Each error is about a required module that something is wrong with. -/
theorem C69_errors {e : Env} {ms : List Mod} {absent : List Nat} : ∀ i ∈ (run e ms absent).errors, ∃ m ∈ ms, m.id = i ∧ m.required = true ∧ Faulty e m := by
  have hpr : ∀ l s, (∀ x ∈ l, x ∈ ms) → (∀ i ∈ s.errors, ∃ m ∈ ms, m.id = i ∧ m.required = true ∧ Faulty e m) →
      ∀ i ∈ (probeAll e l s).errors, ∃ m ∈ ms, m.id = i ∧ m.required = true ∧ Faulty e m := by
    intro l
    induction l with
    | nil => exact fun s _ hs => hs
    | cons x l ih =>
      intro s hl hs
      have hx : ∀ i ∈ (probe e x s).errors, ∃ m ∈ ms, m.id = i ∧ m.required = true ∧ Faulty e m := by
        unfold probe
        split
        · exact hs
        · split
          · exact hs
          · split
            · exact hs
            · rename_i hf
              intro i hi
              rcases setupError_mem i hi with h | ⟨rfl, h⟩
              · exact hs i h
              · refine ⟨x, hl x (by simp), rfl, h, s.gone, ?_⟩
                simp only [Bool.and_eq_true, not_and, Bool.not_eq_true] at hf
                cases hp : e.probes x.id s.gone with
                | false => exact Or.inl rfl
                | true => exact Or.inr (Or.inl (hf hp))
      unfold probeAll
      simp only
      split
      · exact hx
      · exact ih _ (fun y hy => hl y (by simp [hy])) hx
  have hva : ∀ l s, (∀ x ∈ l, x ∈ ms) → (∀ i ∈ s.errors, ∃ m ∈ ms, m.id = i ∧ m.required = true ∧ Faulty e m) →
      ∀ i ∈ (validateAll e l s).2.errors, ∃ m ∈ ms, m.id = i ∧ m.required = true ∧ Faulty e m := by
    intro l
    induction l with
    | nil => exact fun s _ hs => hs
    | cons x l ih =>
      intro s hl hs
      have hx : ∀ i ∈ (validate e x s).2.errors, ∃ m ∈ ms, m.id = i ∧ m.required = true ∧ Faulty e m := by
        unfold validate
        split
        · exact hs
        · split
          · exact hs
          · rename_i hf
            intro i hi
            rcases setupError_mem i hi with h | ⟨rfl, h⟩
            · exact hs i h
            · refine ⟨x, hl x (by simp), rfl, h, s.gone, ?_⟩
              cases hv : e.valid x.id s.gone with
              | false => exact Or.inr (Or.inr (Or.inl rfl))
              | true =>
                rw [hv, Bool.true_and, Bool.not_eq_true, List.all_eq_false] at hf
                obtain ⟨⟨j, r⟩, hj, hr⟩ := hf
                cases r with
                | false => simp at hr
                | true => exact Or.inr (Or.inr (Or.inr ⟨j, by simpa using hr, hj⟩))
      unfold validateAll
      simp only
      split
      · exact ih _ (fun y hy => hl y (by simp [hy])) hx
      · exact hx
  intro i hi
  unfold run at hi
  simp only at hi
  have h := hva ms _ (fun _ h => h) (hpr ms { gone := absent, errors := [] } (fun _ h => h) (by simp))
  split at hi
  · rw [updateAll_errors] at hi; exact h i hi
  · exact h i hi

end Verif.Present
