import Verif.Link.Lem2
/-!
# C105 and C106: what a product is linked against
-/
namespace Verif.Link

section
variable {c : Cfg} {external : List Str} {roots : List Dep}

theorem inv_start : Inv c external roots {} [] [] where
  split := rfl
  nodup := List.nodup_nil
  stands := fun o h => by cases h
  outside := fun o h => by cases h
  once := fun _ => List.nodup_nil
  pubLinked := fun n h => by cases h
  privHidden := fun n h => by cases h
  present := fun d _ h => by cases h
  objects := fun d _ h => by cases h
  presentPriv := fun d _ h => by cases h
  closed := fun e d _ h => by cases h
  reach := fun e d _ h => by rcases h with h | h <;> cases h
  order := fun e d _ h => by cases h
  imported := fun d _ h => by cases h

/-- The result as a whole. -/
theorem collect_ok (hf : Fine external roots) : ∃ st G B B', Inv c external roots st G B ∧
    collect c external roots = G ++ B' ∧ AddedExternal c external B B' ∧
    (∀ d, Linked roots d → d.name ∈ st.pub) ∧
    (∀ d, Hidden roots d → d.prod.kind = some .dynamic → d.name ∈ st.pub ∨ d.name ∈ st.priv) := by
  obtain ⟨hpost, hdone⟩ := traverseAll_ok (c := c) hf none roots false false {} (by
    intro d hd _
    exact ⟨.root d hd, fun _ h => .root d hd h, fun _ h => (by cases h), fun h => (by cases h)⟩) ⟨[], [], inv_start⟩
  unfold collect
  generalize traverseAll c none roots false false {} = st at hpost hdone ⊢
  obtain ⟨G, B, hi⟩ := hpost.inv
  have hlib : ∀ p ∈ external, p ∉ paths G := by
    intro p h hm
    obtain ⟨o, ho, rfl⟩ := List.mem_map.mp hm
    rcases hi.stands o ho with ⟨d, hd, h1, _⟩ | ⟨d, hd, _, h1, _⟩
    · exact (hf.apart d _ (linked_in hd) h1).1 h
    · exact (hf.apart d _ (hidden_in hd) h1).1 h
  obtain ⟨B', h1, ha⟩ := fold_external c G external B hi.once hlib
  refine ⟨st, G, B, B', hi, by rw [hi.split, h1], ha, ?_, ?_⟩
  · intro d hd
    induction hd with
    | root d h hl => exact (hdone d h (by simp) hl).1 rfl
    | step e d he hk hs ih => exact hi.closed e d (linked_in he) ih hk hs
  · have hlinked : ∀ d, Linked roots d → d.name ∈ st.pub := by
      intro d hd
      induction hd with
      | root d h hl => exact (hdone d h (by simp) hl).1 rfl
      | step e d he hk hs ih => exact hi.closed e d (linked_in he) ih hk hs
    intro d hd hk
    have chain : ∀ x, Hidden roots x → ∃ e, Linked roots e ∧ ∀ y, Chain x y → Chain e y := by
      intro x hx
      induction hx with
      | under e x he _ hs => exact ⟨e, he, fun y hy => .step e x y hs hy⟩
      | step e x _ hs ih =>
        obtain ⟨r, hr, hc⟩ := ih
        exact ⟨r, hr, fun y hy => hc y (.step e x y hs hy)⟩
    obtain ⟨e, he, hc⟩ := chain d hd
    exact hi.reach e d (linked_in he) (.inl (hlinked e he)) (hc d (.refl d)) hk

theorem before_filter (f : Obj → Bool) : ∀ (l : List Obj), ∀ {p q : Str}, Before (paths l) p q → (paths l).Nodup →
    p ∈ paths (l.filter f) → q ∈ paths (l.filter f) → Before (paths (l.filter f)) p q := by
  intro l
  induction l with
  | nil => intro p q h; obtain ⟨a, b, c, h⟩ := h; cases a <;> cases h
  | cons o l ih =>
    intro p q h hn hp hq
    obtain ⟨a, b, c, h⟩ := h
    simp only [paths, List.map_cons, List.nodup_cons] at hn
    cases a with
    | nil =>
      simp only [paths, List.map_cons, List.nil_append, List.cons_append, List.cons.injEq] at h
      obtain ⟨rfl, h⟩ := h
      have hql : q ∈ paths l := by
        show q ∈ l.map (·.path)
        rw [h]; simp
      have hne : q ≠ o.path := by
        rintro rfl
        exact hn.1 hql
      have hfo : f o = true := by
        cases hfo : f o with
        | true => rfl
        | false =>
          rw [List.filter_cons, hfo] at hp
          obtain ⟨x, hx, hxp⟩ := List.mem_map.mp hp
          exact absurd (hxp ▸ List.mem_map_of_mem (f := (·.path)) (List.mem_filter.mp hx).1) hn.1
      rw [List.filter_cons, if_pos hfo] at hq ⊢
      simp only [paths, List.map_cons, List.mem_cons] at hq ⊢
      have hq := hq.resolve_left hne
      obtain ⟨x, y, hxy⟩ := List.append_of_mem hq
      exact ⟨[], x, y, by rw [hxy]; rfl⟩
    | cons x a =>
      simp only [paths, List.map_cons, List.cons_append, List.cons.injEq] at h
      obtain ⟨rfl, h⟩ := h
      have hpl : p ∈ paths l := by
        show p ∈ l.map (·.path)
        rw [h]; simp
      have hql : q ∈ paths l := by
        show q ∈ l.map (·.path)
        rw [h]; simp
      have hpo : p ≠ o.path := by rintro rfl; exact hn.1 hpl
      have hqo : q ≠ o.path := by rintro rfl; exact hn.1 hql
      rw [List.filter_cons] at hp hq ⊢
      split
      · rename_i hfo
        rw [if_pos hfo] at hp hq
        simp only [paths, List.map_cons, List.mem_cons] at hp hq
        exact before_append [o.path] (ih ⟨a, b, c, h⟩ hn.2 (hp.resolve_left hpo) (hq.resolve_left hqo))
      · rename_i hfo
        rw [if_neg hfo] at hp hq
        exact ih ⟨a, b, c, h⟩ hn.2 hp hq

theorem direct_external {B B' : List Obj} {st : St} {G : List Obj} (hi : Inv c external roots st G B)
    (ha : AddedExternal c external B B') : ∀ o ∈ B', ∃ p, o = ext p := by
  intro o ho
  rcases ha.only o ho with h | ⟨p, _, rfl⟩
  · obtain ⟨_, _, _, _, p, _, rfl⟩ := hi.outside o h
    exact ⟨p, rfl⟩
  · exact ⟨p, rfl⟩

theorem libraries_split {B B' : List Obj} {st : St} {G : List Obj} (hi : Inv c external roots st G B)
    (ha : AddedExternal c external B B') : libraries (G ++ B') = G.filter (·.direct) ++ B' := by
  unfold libraries
  rw [List.filter_append]
  congr 1
  rw [List.filter_eq_self]
  intro o ho
  obtain ⟨p, rfl⟩ := direct_external hi ha o ho
  rfl

theorem direct_of_linked (hf : Fine external roots) {B : List Obj} {st : St} {G : List Obj}
    (hi : Inv c external roots st G B) {d : Dep} (hd : In roots d) (hn : d.name ∈ st.pub) {p : Str} (hp : p ∈ d.prod.files)
    (hm : p ∈ paths G) : p ∈ paths (G.filter (·.direct)) := by
  obtain ⟨o, ho, rfl⟩ := List.mem_map.mp hm
  apply List.mem_map_of_mem
  refine List.mem_filter.mpr ⟨ho, ?_⟩
  rcases hi.stands o ho with ⟨e, _, _, _, h⟩ | ⟨e, he, _, h1, _, h3, _⟩
  · rw [h]
  · rw [hf.distinct e d _ (hidden_in he) hd h1 hp] at h3
    exact absurd hn h3

/-- C105: every static and every dynamic library that has to be linked in is. -/
theorem C105_complete (hf : Fine external roots) (d : Dep) (hd : Linked roots d) (hk : d.prod.kind ≠ some .object) :
    ∀ p ∈ d.prod.files, p ∈ linkedFiles c external roots := by
  intro p hp
  obtain ⟨st, G, B, B', hi, hc, ha, hl, _⟩ := collect_ok (c := c) hf
  unfold linkedFiles
  rw [hc, libraries_split hi ha, List.map_append]
  exact List.mem_append_left _ (direct_of_linked hf hi (linked_in hd) (hl d hd) hp
    (hi.present d (linked_in hd) (hl d hd) hk p hp))

/-- C105: the files of an object library are linked in if they are not in a static library that is. -/
theorem C105_objects_partial (hf : Fine external roots) (d : Dep) (hd : Linked roots d)
    (hn : ∀ e, Consumed roots e → e.name ≠ d.name) : ∀ p ∈ d.prod.files, p ∈ linkedFiles c external roots := by
  intro p hp
  obtain ⟨st, G, B, B', hi, hc, ha, hl, _⟩ := collect_ok (c := c) hf
  unfold linkedFiles
  rw [hc, libraries_split hi ha, List.map_append]
  exact List.mem_append_left _ (direct_of_linked hf hi (linked_in hd) (hl d hd) hp
    (hi.objects d (linked_in hd) (hl d hd) hn p hp))

/-- C105: external libraries of the product are linked in, and those of the static and object libraries if these are to
    be imported. -/
theorem C105_external (hf : Fine external roots) (p : Str) (h : p ∈ external ∨ (c.importPrivate = true ∧
    ∃ d, Linked roots d ∧ d.prod.kind ≠ some .dynamic ∧ p ∈ d.prod.external)) : p ∈ linkedFiles c external roots := by
  obtain ⟨st, G, B, B', hi, hc, ha, hl, _⟩ := collect_ok (c := c) hf
  unfold linkedFiles
  rw [hc, libraries_split hi ha, List.map_append]
  apply List.mem_append_right
  rcases h with h | ⟨h1, d, hd, hk, h2⟩
  · exact ha.all p h
  · exact ha.kept p (hi.imported d (linked_in hd) (hl d hd) hk h1 p h2)

/-- C105: nothing else is linked in, and libraries of products are taken as a whole if a dependency on them says so. -/
theorem C105_only (hf : Fine external roots) (o : Obj) (ho : o ∈ libraries (collect c external roots)) :
    (∃ d, Linked roots d ∧ o.path ∈ d.prod.files ∧ o.whole = d.params.whole ∧ o.mode = d.params.mode) ∨
    ((o.path ∈ external ∨ (c.importPrivate = true ∧ ∃ d, Linked roots d ∧ d.prod.kind ≠ some .dynamic ∧
      o.path ∈ d.prod.external)) ∧ o.whole = false ∧ o.mode = none) := by
  obtain ⟨st, G, B, B', hi, hc, ha, hl, _⟩ := collect_ok (c := c) hf
  rw [hc, libraries_split hi ha] at ho
  rcases List.mem_append.mp ho with ho | ho
  · obtain ⟨ho, hd⟩ := List.mem_filter.mp ho
    rcases hi.stands o ho with ⟨e, he, h1, _, h⟩ | ⟨e, he, _, h1, _, _, h⟩
    · exact .inl ⟨e, he, h1, by rw [h], by rw [h]⟩
    · rw [h] at hd
      cases hd
  · right
    rcases ha.only o ho with h | ⟨p, hp, rfl⟩
    · obtain ⟨d, hd, hk, hip, p, hp, rfl⟩ := hi.outside o h
      exact ⟨.inr ⟨hip, d, hd, hk, hp⟩, rfl, rfl⟩
    · exact ⟨.inl hp, rfl, rfl⟩

/-- C105: a static or object library comes before the libraries it depends on. -/
theorem C105_order (hf : Fine external roots) (e d : Dep) (he : Linked roots e) (hk : e.prod.kind ≠ some .dynamic)
    (hs : Step e d) (p q : Str) (hp : p ∈ e.prod.files) (hq : q ∈ d.prod.files)
    (hpl : p ∈ linkedFiles c external roots) (hql : q ∈ linkedFiles c external roots) :
    Before (linkedFiles c external roots) p q := by
  obtain ⟨st, G, B, B', hi, hc, ha, hl, _⟩ := collect_ok (c := c) hf
  unfold linkedFiles at hpl hql ⊢
  rw [hc, libraries_split hi ha, List.map_append] at hpl hql ⊢
  have out : ∀ d, In roots d → ∀ p ∈ d.prod.files, p ∉ B'.map (·.path) := by
    intro d hd p hp hm
    obtain ⟨o, ho, rfl⟩ := List.mem_map.mp hm
    rcases ha.only o ho with h | ⟨x, hx, rfl⟩
    · exact apart_B hf hi hd _ hp (List.mem_map_of_mem h)
    · exact (hf.apart d _ hd hp).1 hx
  have hdl : Linked roots d := .step e d he hk hs
  have hp' := (List.mem_append.mp hpl).resolve_right (out e (linked_in he) p hp)
  have hq' := (List.mem_append.mp hql).resolve_right (out d (linked_in hdl) q hq)
  have sub : ∀ x, x ∈ paths (G.filter (·.direct)) → x ∈ paths G := by
    intro x hx
    obtain ⟨o, ho, rfl⟩ := List.mem_map.mp hx
    exact List.mem_map_of_mem (List.mem_filter.mp ho).1
  have := before_filter (·.direct) G (hi.order e d (linked_in he) (hl e he) hk hs p hp q hq (sub p hp') (sub q hq'))
    hi.nodup hp' hq'
  obtain ⟨x, y, z, h⟩ := this
  refine ⟨x, y, z ++ B'.map (·.path), ?_⟩
  rw [show (G.filter (·.direct)).map (·.path) = _ from h]
  simp

/-- C105: external libraries come after those of products, and those of the product itself at the end, in their order. -/
theorem C105_external_last (hf : Fine external roots) :
    (∀ d p q, Linked roots d → p ∈ d.prod.files → p ∈ linkedFiles c external roots →
      (q ∈ external ∨ (c.importPrivate = true ∧ ∃ e, Linked roots e ∧ e.prod.kind ≠ some .dynamic ∧ q ∈ e.prod.external)) →
      Before (linkedFiles c external roots) p q) ∧
    (external.Nodup → ∃ l, linkedFiles c external roots = l ++ external) := by
  obtain ⟨st, G, B, B', hi, hc, ha, hl, _⟩ := collect_ok (c := c) hf
  unfold linkedFiles
  rw [hc, libraries_split hi ha, List.map_append]
  constructor
  · intro d p q hd hp hpl hq
    have hp' : p ∈ paths (G.filter (·.direct)) := by
      rcases List.mem_append.mp hpl with h | h
      · exact h
      · exfalso
        obtain ⟨o, ho, rfl⟩ := List.mem_map.mp h
        rcases ha.only o ho with h | ⟨x, hx, rfl⟩
        · exact apart_B hf hi (linked_in hd) _ hp (List.mem_map_of_mem h)
        · exact (hf.apart d _ (linked_in hd) hp).1 hx
    refine before_split hp' ?_
    rcases hq with h | ⟨h1, e, he, hk, h2⟩
    · exact ha.all q h
    · exact ha.kept q (hi.imported e (linked_in he) (hl e he) hk h1 q h2)
  · intro hn
    obtain ⟨R, hR⟩ := ha.last hn
    exact ⟨(G.filter (·.direct)).map (·.path) ++ R, by rw [show B'.map (·.path) = _ from hR]; simp⟩

/-- C105: no library of a product is given twice, and no library at all unless duplicates are wanted. -/
theorem C105_once (hf : Fine external roots) :
    (∀ d p, Linked roots d → p ∈ d.prod.files → (linkedFiles c external roots).count p ≤ 1) ∧
    (c.dedup = true → (linkedFiles c external roots).Nodup) := by
  obtain ⟨st, G, B, B', hi, hc, ha, hl, _⟩ := collect_ok (c := c) hf
  have nodup : (paths (G.filter (·.direct))).Nodup := (List.Sublist.map _ List.filter_sublist).nodup hi.nodup
  have out : ∀ d, In roots d → ∀ p ∈ d.prod.files, p ∉ B'.map (·.path) := by
    intro d hd p hp hm
    obtain ⟨o, ho, rfl⟩ := List.mem_map.mp hm
    rcases ha.only o ho with h | ⟨x, hx, rfl⟩
    · exact apart_B hf hi hd _ hp (List.mem_map_of_mem h)
    · exact (hf.apart d _ hd hp).1 hx
  unfold linkedFiles
  rw [hc, libraries_split hi ha, List.map_append]
  constructor
  · intro d p hd hp
    rw [List.count_append, List.count_eq_zero_of_not_mem (out d (linked_in hd) p hp)]
    exact List.nodup_iff_count.mp nodup p
  · intro hd
    rw [List.nodup_append]
    refine ⟨nodup, ha.nodup hd, ?_⟩
    intro x hx y hy hxy
    subst hxy
    obtain ⟨o, ho, rfl⟩ := List.mem_map.mp hx
    rcases hi.stands o (List.mem_filter.mp ho).1 with ⟨e, he, h1, _⟩ | ⟨e, he, _, h1, _⟩
    · exact out e (linked_in he) _ h1 hy
    · exact out e (hidden_in he) _ h1 hy

/-- C105: the directories for finding the dependencies of dynamic libraries are those of the dynamic libraries below the
    ones that are linked against, without those that are linked against themselves. -/
theorem C105_rpath_link (hf : Fine external roots) (x : Str) : x ∈ rpathLink (collect c external roots) ↔
    ∃ d p, Hidden roots d ∧ d.prod.kind = some .dynamic ∧ (∀ e, Linked roots e → e.name ≠ d.name) ∧ p ∈ d.prod.files ∧
      x = dirOf p := by
  obtain ⟨st, G, B, B', hi, hc, ha, hl, hh⟩ := collect_ok (c := c) hf
  unfold rpathLink
  rw [hc, List.filter_append]
  have hB : B'.filter (fun o => !o.direct) = [] := by
    rw [List.filter_eq_nil_iff]
    intro o ho
    obtain ⟨p, rfl⟩ := direct_external hi ha o ho
    simp [ext]
  rw [hB, List.append_nil]
  constructor
  · intro h
    obtain ⟨o, ho, rfl⟩ := List.mem_map.mp h
    obtain ⟨ho, hd⟩ := List.mem_filter.mp ho
    rcases hi.stands o ho with ⟨e, he, h1, _, h⟩ | ⟨e, he, hk, h1, _, h3, _⟩
    · rw [h] at hd
      cases hd
    · exact ⟨e, o.path, he, hk, fun f hfl hn => h3 (hn ▸ hl f hfl), h1, rfl⟩
  · rintro ⟨d, p, hd, hk, hn, hp, rfl⟩
    have hpub : d.name ∉ st.pub := by
      intro h
      obtain ⟨e, he, hen⟩ := hi.pubLinked _ h
      exact hn e he hen
    have hpriv := (hh d hd hk).resolve_left hpub
    obtain ⟨o, ho, rfl⟩ := List.mem_map.mp (hi.presentPriv d (hidden_in hd) hpriv p hp)
    refine List.mem_map.mpr ⟨o, List.mem_filter.mpr ⟨ho, ?_⟩, rfl⟩
    rcases hi.stands o ho with ⟨e, he, h1, h2, _⟩ | ⟨_, _, _, _, _, _, h⟩
    · rw [hf.distinct e d _ (linked_in he) (hidden_in hd) h1 hp] at h2
      exact absurd h2 hpub
    · rw [h]
      rfl

end

/-! ## Arguments -/

theorem libArg_flag (driver : Bool) (p : Str) : libArg p ≠ escaped driver wholeOn ∧ libArg p ≠ escaped driver wholeOff := by
  unfold libArg
  split
  · constructor <;> intro h <;> cases driver <;> cases h
  · constructor <;> intro h <;> cases driver <;> cases h
  · constructor <;> intro h <;> cases driver <;> cases h

theorem wholeOff_ne (driver : Bool) : escaped driver wholeOff ≠ escaped driver wholeOn := by
  cases driver <;> decide

/-- C106: the linker takes from the arguments exactly the libraries in their order, as a whole just if that is wanted,
    and taking libraries as a whole is off at the end. Of the same library several times in a row it gets one. -/
theorem C106_arguments (driver : Bool) (l : List Obj) : linkerReads driver false (libArgs driver false none l) =
    some ((rowFirst none l).map (fun o => (libArg o.path, o.whole))) := by
  have gen : ∀ (l : List Obj) (active : Bool) (prev : Option Str), linkerReads driver active (libArgs driver active prev l) =
      some ((rowFirst prev l).map (fun o => (libArg o.path, o.whole))) := by
    intro l
    induction l with
    | nil =>
      intro active prev
      rw [libArgs]
      cases active with
      | false => rfl
      | true =>
        rw [if_pos rfl, linkerReads, if_neg (wholeOff_ne driver), if_pos rfl]
        rfl
    | cons o l ih =>
      intro active prev
      rw [libArgs, rowFirst]
      split
      · exact ih active prev
      · have step : ∀ a, linkerReads driver a (libArg o.path :: libArgs driver o.whole (some o.path) l) =
            (linkerReads driver a (libArgs driver o.whole (some o.path) l)).map ((libArg o.path, a) :: ·) := by
          intro a
          rw [linkerReads, if_neg (libArg_flag driver o.path).1, if_neg (libArg_flag driver o.path).2]
        rw [List.map_cons]
        cases hw : o.whole with
        | true =>
          rw [hw] at step
          cases active with
          | true =>
            simp only [Bool.not_true, Bool.and_false, Bool.false_eq_true, if_false, Bool.not_false, Bool.and_true,
              Bool.false_and, List.nil_append]
            rw [step, ih]
            rfl
          | false =>
            simp only [Bool.not_false, Bool.and_true, if_true, List.cons_append, List.nil_append]
            rw [linkerReads, if_pos rfl, step, ih]
            rfl
        | false =>
          rw [hw] at step
          cases active with
          | true =>
            simp only [Bool.false_and, Bool.false_eq_true, if_false, Bool.not_false, Bool.and_true, if_true,
              List.cons_append, List.nil_append]
            rw [linkerReads, if_neg (wholeOff_ne driver), if_pos rfl, step, ih]
            rfl
          | false =>
            simp only [Bool.false_and, Bool.false_eq_true, if_false, Bool.not_false, Bool.and_false, List.nil_append]
            rw [step, ih]
            rfl
  exact gen l false none

theorem rowFirst_nodup : ∀ (l : List Obj) (prev : Option Str), (paths l).Nodup → (∀ p, prev = some p → p ∉ paths l) →
    rowFirst prev l = l := by
  intro l
  induction l with
  | nil => intros; rfl
  | cons o l ih =>
    intro prev hn hp
    simp only [paths, List.map_cons, List.nodup_cons] at hn
    rw [rowFirst, if_neg (fun h => hp _ h (by simp)), ih _ hn.2 (by
      rintro p h
      rw [← Option.some.inj h]
      exact hn.1)]

/-- C106: so, unless duplicates are wanted, the linker gets just the libraries that were found. -/
theorem C106_linked (c : Cfg) (external : List Str) (roots : List Dep) (hf : Fine external roots) (hd : c.dedup = true)
    (driver : Bool) : linkerReads driver false (libArgs driver false none (libraries (collect c external roots))) =
      some ((libraries (collect c external roots)).map (fun o => (libArg o.path, o.whole))) := by
  rw [C106_arguments, rowFirst_nodup _ _ ((C105_once hf).2 hd) (fun _ h => by cases h)]

end Verif.Link
