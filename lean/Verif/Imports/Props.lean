import Verif.Imports.Lem
/-
C94: what type names mean in a project file.
-/

namespace Verif.Imports

theorem all_inv {w : World} : ∀ (l done : List Stmt) (st st' : St), Inv w done st → handleAll w st l = .ok st' →
    (∀ p, Known w (done ++ l) p → meaning w (done ++ l) p = none) → Inv w (done ++ l) st'
  | [], done, st, st', inv, h, _ => by
    rw [handleAll] at h
    cases h
    simpa using inv
  | s :: l, done, st, st', inv, h, hk => by
    rw [handleAll] at h
    cases h1 : handleImport w st s with
    | error e => rw [h1] at h; cases h
    | ok st1 =>
      rw [h1] at h
      simp only at h
      have inv1 := step_inv inv h1 (by
        intro p hp he
        rw [inv.types]
        have hn := hk p (Or.inl ⟨s, by simp, hp, he⟩)
        cases hm : meaningB w done st.baseImported p with
        | none => rfl
        | some f =>
          have := meaningB_mono w done (s :: l) st.baseImported p (by rw [hm]; rfl)
          rw [hn] at this
          cases this)
      have := all_inv l (done ++ [s]) st1 st' inv1 h (by simpa using hk)
      simpa using this

/-- The statement that is added at the end. -/
theorem result_inv {w : World} {l : List Stmt} {st : St} (h : handleImports w l = .ok st)
    (hk : ∀ p, Known w l p → meaning w l p = none) :
    st.baseImported = true ∧ (Inv w l st ∨ Inv w (l ++ [{ target := .uri ["qbs"] }]) st) := by
  unfold handleImports at h
  cases h1 : handleAll w (start w) l with
  | error e => rw [h1] at h; cases h
  | ok st1 =>
    rw [h1] at h
    simp only at h
    have inv := all_inv l [] (start w) st1 (start_inv w) h1 (by simpa using hk)
    rw [List.nil_append] at inv
    by_cases hb : st1.baseImported = true
    · rw [if_pos hb] at h
      cases h
      exact ⟨hb, Or.inl inv⟩
    · rw [if_neg hb] at h
      have inv2 := step_inv inv h (by
        intro p hp _
        cases hp
        rw [inv.types]
        have hn := hk ["qbs"] (Or.inr rfl)
        cases hm : meaningB w l st1.baseImported ["qbs"] with
        | none => rfl
        | some f =>
          have := meaningB_mono w l [] st1.baseImported ["qbs"] (by rw [hm]; rfl)
          rw [List.append_nil, hn] at this
          cases this)
      refine ⟨?_, Or.inr inv2⟩
      rw [inv2.base]
      exact ⟨_, List.mem_append_right _ (List.mem_singleton_self _), ["qbs"], rfl, rfl⟩

theorem named_base (w : World) (l : List Stmt) (a : Name) :
    named w (l ++ [{ target := .uri ["qbs"] }]) a = named w l a := by
  rw [named_snoc, if_neg (by simp [Stmt.name, isBase])]
  simp

/-- **C94, part.** A name of a type stands for the file that is imported under this name; otherwise for
the first one in the search paths and the directory of the file itself; otherwise for the one that comes
with qbs. A name in a scope stands for the file in the directory that is imported under the name of the
scope. Missing: imports of something that is a type already; see `C94_no_name` and `C94_no_base`. -/
theorem C94_types_partial (w : World) (l : List Stmt) (st : St) (h : handleImports w l = .ok st)
    (hk : ∀ p, Known w l p → meaning w l p = none) (p : Path) : lookup st.types p = meaning w l p := by
  obtain ⟨hb, inv | inv⟩ := result_inv h hk
  · rw [inv.types, hb, meaningB_true]
  · rw [inv.types, hb, meaningB_true]
    match p with
    | [] => rfl
    | [n] => simp only [meaning, named_base]
    | [a, n] => simp only [meaning, named_base]
    | _ :: _ :: _ :: _ => rfl

/-- **C94, part.** A scope for JavaScript has the file, or the files in the directory, that are imported
under its name. Missing: as for `C94_types_partial`. -/
theorem C94_scripts_partial (w : World) (l : List Stmt) (st : St) (h : handleImports w l = .ok st)
    (hk : ∀ p, Known w l p → meaning w l p = none) (a : Name) :
    (lookup st.js (some a)).getD [] = ((named w l a).map fun s => s.scripts w).getD [] := by
  have key : lookup st.js (some a) = scriptsOf w l a := by
    obtain ⟨_, inv | inv⟩ := result_inv h hk
    · exact inv.js a
    · rw [inv.js a]
      unfold scriptsOf
      rw [named_base]
  rw [key]
  unfold scriptsOf
  cases named w l a with
  | none => rfl
  | some s =>
    simp only [Option.map_some, Option.bind_some, Option.getD_some]
    by_cases hs : s.scripts w = []
    · simp [hs]
    · simp [hs]

/-! ### Names -/

theorem step_names {w : World} {st st' : St} {s : Stmt} (h : handleImport w st s = .ok st') :
    st'.names = st.names ++ (s.name w).toList ∧
    (∀ a, s.name w = some a → a ∉ st.names ∧ w.hasExtension a = false) ∧
    (∀ x, x ∈ st'.exts ↔ x ∈ st.exts ∨ ∃ p, s.target = .uri p ∧ isBase p = false ∧ extension w p = some x) := by
  have hall : ∀ (st : St) d as, (collectAll w st d as).names = st.names ∧ (collectAll w st d as).exts = st.exts :=
    fun _ _ _ => ⟨rfl, rfl⟩
  have huri : ∀ (st st' : St) p as, importUri w st p as = .ok st' → st'.names = st.names ∧ st'.exts = st.exts := by
    intro st st' p as h
    unfold importUri at h
    split at h
    · cases h; exact ⟨rfl, rfl⟩
    · split at h
      · cases h; exact hall _ _ _
      · cases h
  unfold handleImport at h
  cases ht : s.target with
  | uri p =>
    rw [ht] at h
    simp only at h
    by_cases hb : isBase p = true
    · have hname : s.name w = none := by
        unfold Stmt.name
        rw [ht]
        simp [hb]
      rw [if_pos hb] at h
      split at h
      · cases h
      · split at h
        · cases h
        · obtain ⟨h1, h2⟩ := huri _ _ _ _ h
          refine ⟨by rw [h1, hname]; simp, by rw [hname]; simp, fun x => ?_⟩
          rw [h2]
          constructor
          · intro h; exact Or.inl h
          · rintro (h | ⟨q, hq, hq', _⟩)
            · exact h
            · cases hq; rw [hb] at hq'; cases hq'
    · rw [if_neg hb] at h
      cases he : extension w p with
      | some x =>
        rw [he] at h
        simp only at h
        have hname : s.name w = none := by
          unfold Stmt.name
          rw [ht]
          simp [he]
        split at h
        · cases h
        · cases h
          refine ⟨?_, by rw [hname]; simp, fun y => ?_⟩
          · rw [hname]
            split <;> simp
          · have : y ∈ (if x ∈ st.exts then st else { st with exts := st.exts ++ [x] }).exts ↔
                y ∈ st.exts ∨ y = x := by
              split
              · rename_i hm
                constructor
                · intro h; exact Or.inl h
                · rintro (h | rfl)
                  · exact h
                  · exact hm
              · simp
            rw [this]
            constructor
            · rintro (h | rfl)
              · exact Or.inl h
              · exact Or.inr ⟨p, rfl, by simpa using hb, he⟩
            · rintro (h | ⟨q, hq, _, hx⟩)
              · exact Or.inl h
              · cases hq; rw [he] at hx; cases hx; exact Or.inr rfl
      | none =>
        rw [he] at h
        simp only at h
        cases ha : s.importId.or p.getLast? with
        | none => rw [ha] at h; cases h
        | some a =>
          rw [ha] at h
          simp only at h
          have hname : s.name w = some a := by
            unfold Stmt.name
            rw [ht]
            simp only [hb, he, Option.isSome_none, Bool.false_eq_true, or_self, if_false]
            exact ha
          cases hn : addName w st a with
          | error e => rw [hn] at h; cases h
          | ok st1 =>
            rw [hn] at h
            obtain ⟨hx, hm, rfl⟩ := addName_ok hn
            obtain ⟨h1, h2⟩ := huri _ _ _ _ h
            refine ⟨by rw [h1, hname]; rfl, ?_, fun x => ?_⟩
            · rw [hname]; rintro b hb'; cases hb'; exact ⟨hm, hx⟩
            · rw [h2]
              constructor
              · intro h; exact Or.inl h
              · rintro (h | ⟨q, hq, _, hx⟩)
                · exact h
                · cases hq; rw [he] at hx; cases hx
  | file nm =>
    rw [ht] at h
    simp only at h
    cases ha : s.importId with
    | none => rw [ha] at h; cases h
    | some a =>
      rw [ha] at h
      simp only at h
      have hname : s.name w = some a := by
        unfold Stmt.name
        rw [ht]
        exact ha
      cases hn : addName w st a with
      | error e => rw [hn] at h; cases h
      | ok st1 =>
        rw [hn] at h
        obtain ⟨hx, hm, rfl⟩ := addName_ok hn
        have h12 : st'.names = st.names ++ [a] ∧ st'.exts = st.exts := by
          unfold importFile at h
          simp only at h
          split at h
          · cases h
          · cases h; exact hall _ _ _
          · cases h; exact ⟨rfl, rfl⟩
          · cases h; exact ⟨rfl, rfl⟩
          · cases h
        refine ⟨by rw [h12.1, hname]; rfl, ?_, fun x => ?_⟩
        · rw [hname]; rintro b hb'; cases hb'; exact ⟨hm, hx⟩
        · rw [h12.2]
          constructor
          · intro h; exact Or.inl h
          · rintro (h | ⟨q, hq, _⟩)
            · exact h
            · cases hq

theorem all_names {w : World} : ∀ (l : List Stmt) (st st' : St), handleAll w st l = .ok st' →
    st.names.Nodup → (∀ a ∈ st.names, w.hasExtension a = false) →
    st'.names = st.names ++ l.filterMap (fun s => s.name w) ∧ st'.names.Nodup ∧
    (∀ a ∈ st'.names, w.hasExtension a = false) ∧
    ∀ x, x ∈ st'.exts ↔ x ∈ st.exts ∨ ∃ s ∈ l, ∃ p, s.target = .uri p ∧ isBase p = false ∧ extension w p = some x
  | [], st, st', h, hn, he => by
    rw [handleAll] at h
    cases h
    simp [hn]
    exact he
  | s :: l, st, st', h, hn, he => by
    rw [handleAll] at h
    cases h1 : handleImport w st s with
    | error e => rw [h1] at h; cases h
    | ok st1 =>
      rw [h1] at h
      simp only at h
      obtain ⟨a1, a2, a3⟩ := step_names h1
      have hn1 : st1.names.Nodup ∧ ∀ a ∈ st1.names, w.hasExtension a = false := by
        rw [a1]
        cases hs : s.name w with
        | none => simpa using ⟨hn, he⟩
        | some a =>
          obtain ⟨b1, b2⟩ := a2 a hs
          constructor
          · rw [List.nodup_append]
            refine ⟨hn, by simp, fun x hx y hy => ?_⟩
            simp at hy
            subst hy
            exact fun e => b1 (e ▸ hx)
          · intro x hx
            simp at hx
            rcases hx with hx | rfl
            · exact he x hx
            · exact b2
      obtain ⟨c1, c2, c3, c4⟩ := all_names l st1 st' h hn1.1 hn1.2
      refine ⟨?_, c2, c3, fun x => ?_⟩
      · rw [c1, a1, List.filterMap_cons]
        cases s.name w <;> simp
      · rw [c4, a3]
        simp only [List.mem_cons, exists_eq_or_imp, or_assoc]

theorem names_aux (w : World) (l : List Stmt) (st : St) (h : handleImports w l = .ok st) :
    (l.filterMap fun s => s.name w).Nodup ∧ (∀ s ∈ l, ∀ a, s.name w = some a → w.hasExtension a = false) ∧
    ∀ x, x ∈ st.exts ↔ ∃ s ∈ l, ∃ p, s.target = .uri p ∧ isBase p = false ∧ extension w p = some x := by
  unfold handleImports at h
  have hst := lookup_start w [] (w.searchDirs ++ [w.own]) {}
  cases h1 : handleAll w (start w) l with
  | error e => rw [h1] at h; cases h
  | ok st1 =>
    rw [h1] at h
    simp only at h
    have hs0 : (start w).names = [] := hst.2.2.2.1
    have hs1 : (start w).exts = [] := hst.2.2.1
    obtain ⟨c1, c2, c3, c4⟩ := all_names l (start w) st1 h1 (by rw [hs0]; exact List.nodup_nil)
      (by rw [hs0]; intro a ha; simp at ha)
    rw [hs0, List.nil_append] at c1
    rw [hs1] at c4
    refine ⟨by rw [← c1]; exact c2, fun s hs a ha => c3 a (by rw [c1]; exact List.mem_filterMap.2 ⟨s, hs, ha⟩),
      fun x => ?_⟩
    have hx : x ∈ st.exts ↔ x ∈ st1.exts := by
      split at h
      · cases h; exact Iff.rfl
      · obtain ⟨_, _, a3⟩ := step_names h
        rw [a3]
        constructor
        · rintro (h | ⟨p, hp, hb, _⟩)
          · exact h
          · cases hp; exact absurd hb (by decide)
        · intro h; exact Or.inl h
    rw [hx, c4]
    simp

theorem isBase_iff (p : Path) : isBase p = true ↔ p = ["qbs"] ∨ p = ["qbs", "base"] := by
  simp [isBase]

theorem extension_iff (w : World) (p : Path) (x : Name) :
    extension w p = some x ↔ p = ["qbs", x] ∧ w.hasExtension x = true := by
  unfold extension
  split
  · rename_i q y
    by_cases h : q = "qbs" ∧ w.hasExtension y = true
    · rw [if_pos h]
      constructor
      · intro hx; cases hx; exact ⟨by rw [h.1], h.2⟩
      · rintro ⟨hp, _⟩; cases hp; rfl
    · rw [if_neg h]
      constructor
      · intro hx; cases hx
      · rintro ⟨hp, hx⟩; cases hp; exact absurd ⟨rfl, hx⟩ h
  · rename_i h
    constructor
    · intro hx; cases hx
    · rintro ⟨rfl, _⟩; exact absurd rfl (h _ _)

/-- **C94.** No two imports give the same name, none gives that of a built-in extension, and the built-in
extensions are those that are imported as `qbs.` and the name of the extension. -/
theorem C94_names (w : World) (l : List Stmt) (st : St) (h : handleImports w l = .ok st) :
    (l.filterMap fun s => s.name w).Nodup ∧ (∀ s ∈ l, ∀ a, s.name w = some a → w.hasExtension a = false) ∧
    ∀ x, x ∈ st.exts ↔ w.hasExtension x = true ∧ x ≠ "base" ∧ ∃ s ∈ l, s.target = .uri ["qbs", x] := by
  obtain ⟨h1, h2, h3⟩ := names_aux w l st h
  refine ⟨h1, h2, fun x => ?_⟩
  rw [h3]
  constructor
  · rintro ⟨s, hs, p, hp, hb, hx⟩
    obtain ⟨rfl, hx'⟩ := (extension_iff w p x).1 hx
    refine ⟨hx', ?_, s, hs, hp⟩
    rintro rfl
    exact absurd ((isBase_iff _).2 (Or.inr rfl)) (by rw [hb]; simp)
  · rintro ⟨hx, hne, s, hs, hp⟩
    refine ⟨s, hs, _, hp, ?_, (extension_iff w _ x).2 ⟨rfl, hx⟩⟩
    rw [← Bool.not_eq_true, isBase_iff]
    rintro (h | h)
    · cases h
    · cases h; exact hne rfl

/-- **C94.** Only an import of qbs itself, that is, `qbs` or `qbs.base`, or of a built-in extension, which is
one of `qbs.` and a name, gives no name. -/
theorem C94_unnamed (w : World) (s : Stmt) (p : Path) (hp : s.target = .uri p) (hne : p ≠ []) :
    s.name w = none ↔ p = ["qbs"] ∨ p = ["qbs", "base"] ∨ ∃ x, w.hasExtension x = true ∧ p = ["qbs", x] := by
  have he : (extension w p).isSome = true ↔ ∃ x, w.hasExtension x = true ∧ p = ["qbs", x] := by
    rw [Option.isSome_iff_exists]
    constructor
    · rintro ⟨x, hx⟩; obtain ⟨a, b⟩ := (extension_iff w p x).1 hx; exact ⟨x, b, a⟩
    · rintro ⟨x, a, b⟩; exact ⟨x, (extension_iff w p x).2 ⟨b, a⟩⟩
  unfold Stmt.name
  rw [hp]
  simp only
  rw [← or_assoc, ← isBase_iff, ← he]
  by_cases hc : isBase p = true ∨ (extension w p).isSome = true
  · rw [if_pos hc]; exact ⟨fun _ => hc, fun _ => rfl⟩
  · rw [if_neg hc]
    constructor
    · intro hh
      exfalso
      cases hi : s.importId with
      | some i => rw [hi] at hh; cases hh
      | none =>
        rw [hi, Option.none_or, List.getLast?_eq_none_iff] at hh
        exact hne hh
    · intro hh; exact absurd hh hc

theorem named_perm {w : World} {l l' : List Stmt} (hp : l.Perm l') (hn : (l.filterMap fun s => s.name w).Nodup)
    (a : Name) : named w l a = named w l' a := by
  have key : ∀ (l : List Stmt), (l.filterMap fun s => s.name w).Nodup → ∀ s, s ∈ l → s.name w = some a →
      named w l a = some s := by
    intro l
    induction l with
    | nil => intro _ s hs; simp at hs
    | cons t l ih =>
      intro hn s hs ha
      unfold named
      by_cases ht : t.name w = some a
      · rw [List.find?_cons_of_pos (by simpa using ht)]
        rcases List.mem_cons.1 hs with rfl | hs
        · rfl
        · exfalso
          rw [List.filterMap_cons, ht] at hn
          exact (List.nodup_cons.1 hn).1 (List.mem_filterMap.2 ⟨s, hs, ha⟩)
      · rw [List.find?_cons_of_neg (by simpa using ht)]
        rcases List.mem_cons.1 hs with rfl | hs
        · exact absurd ha ht
        · refine ih ?_ s hs ha
          rw [List.filterMap_cons] at hn
          cases hx : t.name w with
          | none => rw [hx] at hn; exact hn
          | some b => rw [hx] at hn; exact (List.nodup_cons.1 hn).2
  cases h : named w l a with
  | some s =>
    have hs := List.mem_of_find?_eq_some h
    have ha := List.find?_some h
    simp only [decide_eq_true_eq] at ha
    exact (key l' ((hp.filterMap _).nodup_iff.1 hn) s (hp.mem_iff.1 hs) ha).symm
  | none =>
    symm
    unfold named at h ⊢
    rw [List.find?_eq_none] at h ⊢
    intro s hs
    exact h s (hp.mem_iff.2 hs)

/-- **C94, part.** The order of the imports does not matter. Missing: as for `C94_types_partial`. -/
theorem C94_order_partial (w : World) (l l' : List Stmt) (hp : l.Perm l') (st st' : St)
    (h : handleImports w l = .ok st) (h' : handleImports w l' = .ok st')
    (hk : ∀ p, Known w l p → meaning w l p = none) (p : Path) : lookup st.types p = lookup st'.types p := by
  have hm : ∀ p, meaning w l p = meaning w l' p := by
    intro p
    have hn := named_perm hp (C94_names w l st h).1
    match p with
    | [] => rfl
    | [n] => simp only [meaning, hn]
    | [a, n] => simp only [meaning, hn]
    | _ :: _ :: _ :: _ => rfl
  rw [C94_types_partial w l st h hk p, hm, C94_types_partial w l' st' h' ?_ p]
  intro q hq
  rw [← hm]
  refine hk q ?_
  rcases hq with ⟨s, hs, h⟩ | h
  · exact Or.inl ⟨s, hp.mem_iff.2 hs, h⟩
  · exact Or.inr h

/-! ### Types that are known already -/

theorem lookup_import_mono {w : World} {st st' : St} {s : Stmt} (h : handleImport w st s = .ok st') (p : Path)
    (hp : (lookup st.types p).isSome = true) : (lookup st'.types p).isSome = true := by
  have hall : ∀ (st : St) d as, (lookup st.types p).isSome = true →
      (lookup (collectAll w st d as).types p).isSome = true := by
    intro st d as hs
    show (lookup (collectTypes st.types as (w.comps d)) p).isSome = true
    rw [lookup_collect, or_isSome]
    exact Or.inl hs
  have huri : ∀ (st st' : St) q as, importUri w st q as = .ok st' → (lookup st.types p).isSome = true →
      (lookup st'.types p).isSome = true := by
    intro st st' q as h hs
    unfold importUri at h
    split at h
    · cases h; exact hs
    · split at h
      · cases h; exact hall _ _ _ hs
      · cases h
  unfold handleImport at h
  split at h
  · split at h
    · split at h
      · cases h
      · split at h
        · cases h
        · exact huri _ _ _ _ h hp
    · split at h
      · split at h
        · cases h
        · cases h
          split <;> exact hp
      · split at h
        · cases h
        · split at h
          · cases h
          · rename_i hn
            obtain ⟨_, _, rfl⟩ := addName_ok hn
            exact huri _ _ _ _ h hp
  · split at h
    · cases h
    · split at h
      · cases h
      · rename_i hn
        obtain ⟨_, _, rfl⟩ := addName_ok hn
        unfold importFile at h
        split at h
        · cases h
        · cases h; exact hall _ _ _ hp
        · cases h; exact hp
        · cases h
          simp only
          rw [lookup_insert]
          split
          · rfl
          · exact hp
        · cases h

theorem found_aux (w : World) (l : List Stmt) (st : St) (h : handleImports w l = .ok st) (s : Stmt) (hs : s ∈ l)
    (p : Path) (hp : s.target = .uri p) (hb : isBase p = false) :
    (extension w p).isSome = true ∨ (w.importDir p).isSome = true ∨ (lookup st.types p).isSome = true := by
  have hall : ∀ (l : List Stmt) (st st' : St), handleAll w st l = .ok st' →
      (∀ q, (lookup st.types q).isSome = true → (lookup st'.types q).isSome = true) ∧
      (s ∈ l → (extension w p).isSome = true ∨ (w.importDir p).isSome = true ∨
        (lookup st'.types p).isSome = true) := by
    intro l
    induction l with
    | nil => intro st st' h; rw [handleAll] at h; cases h; exact ⟨fun q hq => hq, by simp⟩
    | cons t l ih =>
      intro st st' h
      rw [handleAll] at h
      cases h1 : handleImport w st t with
      | error e => rw [h1] at h; cases h
      | ok st1 =>
        rw [h1] at h
        simp only at h
        obtain ⟨m1, m2⟩ := ih st1 st' h
        refine ⟨fun q hq => m1 q (lookup_import_mono h1 q hq), fun hm => ?_⟩
        rcases List.mem_cons.1 hm with rfl | hm
        · by_cases hk : (lookup st.types p).isSome = true
          · exact Or.inr (Or.inr (m1 p (lookup_import_mono h1 p hk)))
          · unfold handleImport at h1
            rw [hp] at h1
            simp only [hb, Bool.false_eq_true, if_false] at h1
            cases he : extension w p with
            | some x => exact Or.inl rfl
            | none =>
              rw [he] at h1
              simp only at h1
              split at h1
              · cases h1
              · split at h1
                · cases h1
                · rename_i hn
                  obtain ⟨_, _, rfl⟩ := addName_ok hn
                  unfold importUri at h1
                  simp only [hk, hb, Bool.false_eq_true, if_false] at h1
                  split at h1
                  · rename_i d hd
                    refine Or.inr (Or.inl ?_)
                    unfold World.importDir
                    rw [hd]
                    rfl
                  · cases h1
        · exact m2 hm
  unfold handleImports at h
  cases h1 : handleAll w (start w) l with
  | error e => rw [h1] at h; cases h
  | ok st1 =>
    rw [h1] at h
    simp only at h
    rcases (hall l _ _ h1).2 hs with h2 | h2 | h2
    · exact Or.inl h2
    · exact Or.inr (Or.inl h2)
    · refine Or.inr (Or.inr ?_)
      split at h
      · cases h; exact h2
      · exact lookup_import_mono h p h2

/-- **C94.** An import without a file name is one of qbs itself, of a built-in extension, of a directory in
the search paths, or of a type that is known. -/
theorem C94_found (w : World) (l : List Stmt) (st : St) (h : handleImports w l = .ok st) (s : Stmt) (hs : s ∈ l)
    (p : Path) (hp : s.target = .uri p) (h1 : p ≠ ["qbs"]) (h2 : p ≠ ["qbs", "base"]) :
    (∃ x, p = ["qbs", x] ∧ w.hasExtension x = true) ∨ (w.importDir p).isSome = true ∨
    (lookup st.types p).isSome = true := by
  have hb : isBase p = false := by
    rw [← Bool.not_eq_true, isBase_iff]
    rintro (h | h)
    · exact h1 h
    · exact h2 h
  rcases found_aux w l st h s hs p hp hb with h | h | h
  · obtain ⟨x, hx⟩ := Option.isSome_iff_exists.1 h
    exact Or.inl ⟨x, (extension_iff w p x).1 hx⟩
  · exact Or.inr (Or.inl h)
  · exact Or.inr (Or.inr h)

end Verif.Imports
