import Verif.Link.Spec
import Verif.Common.Snoc
/-!
# The lists of objects
-/
namespace Verif.Link

abbrev paths (l : List Obj) : List Str := l.map (·.path)

theorem known_iff (p : Str) (l : List Obj) : known p l = true ↔ p ∈ paths l := by
  simp [known, paths]

theorem filter_id (p : Str) (l : List Obj) (h : p ∉ paths l) : l.filter (fun x => x.path ≠ p) = l := by
  rw [List.filter_eq_self]
  intro o ho
  simp only [decide_eq_true_eq]
  rintro rfl
  exact h (List.mem_map_of_mem ho)

theorem addObject_front (c : Cfg) (o : Obj) (l : List Obj) (h : o.path ∉ paths l) : addObject c o true l = o :: l := by
  unfold addObject
  simp only [if_true]
  split
  · rw [filter_id _ _ h]
  · rfl

theorem setLast_none (p : Str) (f : Obj → Obj) : ∀ l : List Obj, p ∉ paths l → setLast p f l = l := by
  intro l
  induction l with
  | nil => intro _; rfl
  | cons o l ih =>
    intro h
    simp only [paths, List.map_cons, List.mem_cons, not_or] at h
    rw [setLast, if_neg (fun hh => h.1 hh.1.symm), ih h.2]

theorem setLast_eq (p : Str) (f : Obj → Obj) (B : List Obj) (hB : p ∉ paths B) : ∀ G : List Obj, (paths G).Nodup →
    setLast p f (G ++ B) = G.map (fun o => if o.path = p then f o else o) ++ B := by
  intro G
  induction G with
  | nil => intro _; exact setLast_none p f B hB
  | cons o G ih =>
    intro hn
    simp only [paths, List.map_cons, List.nodup_cons] at hn
    rw [List.cons_append, setLast]
    by_cases ho : o.path = p
    · have hG : p ∉ paths G := ho ▸ hn.1
      have hall : (G ++ B).all (fun x => decide (x.path ≠ p)) = true := by
        rw [List.all_eq_true]
        intro x hx
        simp only [decide_eq_true_eq]
        rintro rfl
        rcases List.mem_append.mp hx with hx | hx
        · exact hG (List.mem_map_of_mem hx)
        · exact hB (List.mem_map_of_mem hx)
      rw [if_pos ⟨ho, hall⟩, List.map_cons, if_pos ho]
      congr 1
      have : G.map (fun o => if o.path = p then f o else o) = G := by
        have h2 : G.map (fun o => if o.path = p then f o else o) = G.map id := by
          apply List.map_congr_left
          intro x hx
          show (if x.path = p then f x else x) = x
          rw [if_neg]
          rintro rfl
          exact hG (List.mem_map_of_mem hx)
        rw [h2, List.map_id]
      rw [this]
      rfl
    · rw [if_neg (fun hh => ho hh.1), List.map_cons, if_neg ho, ih hn.2]
      rfl

/-- What adding the files of a product does to the first part of the list. -/
structure Added (q : Params) (files : List Str) (G G' : List Obj) : Prop where
  nodup : (paths G').Nodup
  only : ∀ o ∈ G', (o ∈ G ∧ o.path ∉ files) ∨ (o.path ∈ files ∧ o = ⟨o.path, true, q.whole, q.mode⟩)
  all : ∀ p ∈ files, p ∈ paths G'
  kept : ∀ o ∈ G, o.path ∉ files → o ∈ G'
  front : ∃ N, paths G' = N ++ paths G ∧ ∀ p ∈ N, p ∈ files

theorem fold_public (c : Cfg) (q : Params) (B : List Obj) : ∀ (files : List Str) (G : List Obj), (paths G).Nodup →
    (∀ p ∈ files, p ∉ paths B) →
    ∃ G', files.foldl (addPublic c q) (G ++ B) = G' ++ B ∧ Added q files G G' := by
  intro files
  induction files with
  | nil =>
    intro G hG _
    exact ⟨G, rfl, hG, fun o ho => .inl ⟨ho, by simp⟩, by simp, fun o ho _ => ho, [], rfl, by simp⟩
  | cons p files ih =>
    intro G hG hB
    rw [List.foldl_cons]
    have hp : p ∉ paths B := hB p (by simp)
    have hB' : ∀ x ∈ files, x ∉ paths B := fun x hx => hB x (by simp [hx])
    by_cases hk : p ∈ paths G
    · have h1 : addPublic c q (G ++ B) p = G.map (fun o => if o.path = p then
          { o with direct := true, whole := q.whole, mode := q.mode } else o) ++ B := by
        unfold addPublic
        rw [if_pos ((known_iff _ _).mpr (by simp only [paths, List.map_append]; exact List.mem_append_left _ hk))]
        exact setLast_eq p _ B hp G hG
      rw [h1]
      have hpaths : paths (G.map (fun o => if o.path = p then
          ({ o with direct := true, whole := q.whole, mode := q.mode } : Obj) else o)) = paths G := by
        simp only [paths, List.map_map]
        apply List.map_congr_left
        intro o _
        simp only [Function.comp_apply]
        split <;> rfl
      obtain ⟨G', hf, ha⟩ := ih _ (hpaths ▸ hG) hB'
      refine ⟨G', hf, ha.nodup, ?_, ?_, ?_, ?_⟩
      · intro o ho
        rcases ha.only o ho with ⟨hm, hn⟩ | ⟨h1, h2⟩
        · obtain ⟨x, hx, rfl⟩ := List.mem_map.mp hm
          by_cases hxp : x.path = p
          · simp only [hxp, if_true] at hn ⊢
            exact .inr ⟨by simp, by first | rfl | trivial⟩
          · simp only [hxp, if_false] at hn ⊢
            exact .inl ⟨hx, by simp [hxp, hn]⟩
        · exact .inr ⟨by simp [h1], h2⟩
      · intro x hx
        rcases List.mem_cons.mp hx with rfl | hx
        · obtain ⟨N, hN, _⟩ := ha.front
          rw [hN, hpaths]
          exact List.mem_append_right _ hk
        · exact ha.all x hx
      · intro o ho hn
        simp only [List.mem_cons, not_or] at hn
        refine ha.kept o ?_ hn.2
        exact List.mem_map.mpr ⟨o, ho, if_neg hn.1⟩
      · obtain ⟨N, hN, hN'⟩ := ha.front
        exact ⟨N, by rw [hN, hpaths], fun x hx => by simp [hN' x hx]⟩
    · have h1 : addPublic c q (G ++ B) p = (⟨p, true, q.whole, q.mode⟩ :: G) ++ B := by
        have hn : p ∉ paths (G ++ B) := by
          simp only [paths, List.map_append, List.mem_append, not_or]
          exact ⟨hk, hp⟩
        unfold addPublic
        rw [if_neg (fun h => hn ((known_iff _ _).mp h)), addObject_front _ _ _ hn]
        rfl
      rw [h1]
      obtain ⟨G', hf, ha⟩ := ih (⟨p, true, q.whole, q.mode⟩ :: G) (by
        simp only [paths, List.map_cons, List.nodup_cons]
        exact ⟨hk, hG⟩) hB'
      refine ⟨G', hf, ha.nodup, ?_, ?_, ?_, ?_⟩
      · intro o ho
        rcases ha.only o ho with ⟨hm, hn⟩ | ⟨h1, h2⟩
        · rcases List.mem_cons.mp hm with rfl | hm'
          · exact .inr ⟨by simp, rfl⟩
          · refine .inl ⟨hm', ?_⟩
            simp only [List.mem_cons, not_or]
            refine ⟨?_, hn⟩
            intro hp'
            exact hk (hp' ▸ List.mem_map_of_mem hm')
        · exact .inr ⟨by simp [h1], h2⟩
      · intro x hx
        rcases List.mem_cons.mp hx with rfl | hx
        · obtain ⟨N, hN, _⟩ := ha.front
          rw [hN]
          exact List.mem_append_right _ (by simp)
        · exact ha.all x hx
      · intro o ho hn
        simp only [List.mem_cons, not_or] at hn
        exact ha.kept o (by simp [ho]) hn.2
      · obtain ⟨N, hN, hN'⟩ := ha.front
        refine ⟨N ++ [p], by rw [hN]; simp [paths], ?_⟩
        intro x hx
        rcases List.mem_append.mp hx with hx | hx
        · simp [hN' x hx]
        · simp_all

/-- The same for those that are not linked against. -/
structure AddedPrivate (files : List Str) (G G' : List Obj) : Prop where
  nodup : (paths G').Nodup
  only : ∀ o ∈ G', o ∈ G ∨ (o.path ∈ files ∧ o.path ∉ paths G ∧ o.direct = false)
  all : ∀ p ∈ files, p ∈ paths G'
  kept : ∀ o ∈ G, o ∈ G'
  front : ∃ N, paths G' = N ++ paths G ∧ ∀ p ∈ N, p ∈ files

theorem fold_private (c : Cfg) (B : List Obj) : ∀ (files : List Str) (G : List Obj), (paths G).Nodup →
    (∀ p ∈ files, p ∉ paths B) →
    ∃ G', files.foldl (addPrivate c) (G ++ B) = G' ++ B ∧ AddedPrivate files G G' := by
  intro files
  induction files with
  | nil =>
    intro G hG _
    exact ⟨G, rfl, hG, fun o ho => .inl ho, by simp, fun o ho => ho, [], rfl, by simp⟩
  | cons p files ih =>
    intro G hG hB
    rw [List.foldl_cons]
    have hp : p ∉ paths B := hB p (by simp)
    have hB' : ∀ x ∈ files, x ∉ paths B := fun x hx => hB x (by simp [hx])
    by_cases hk : p ∈ paths G
    · have h1 : addPrivate c (G ++ B) p = G ++ B := by
        unfold addPrivate
        rw [if_pos ((known_iff _ _).mpr (by simp only [paths, List.map_append]; exact List.mem_append_left _ hk))]
      rw [h1]
      obtain ⟨G', hf, ha⟩ := ih G hG hB'
      refine ⟨G', hf, ha.nodup, ?_, ?_, ha.kept, ?_⟩
      · intro o ho
        rcases ha.only o ho with h | ⟨h1, h2⟩
        · exact .inl h
        · exact .inr ⟨by simp [h1], h2⟩
      · intro x hx
        rcases List.mem_cons.mp hx with rfl | hx
        · obtain ⟨N, hN, _⟩ := ha.front
          rw [hN]
          exact List.mem_append_right _ hk
        · exact ha.all x hx
      · obtain ⟨N, hN, hN'⟩ := ha.front
        exact ⟨N, hN, fun x hx => by simp [hN' x hx]⟩
    · have h1 : addPrivate c (G ++ B) p = (⟨p, false, false, none⟩ :: G) ++ B := by
        have hn : p ∉ paths (G ++ B) := by
          simp only [paths, List.map_append, List.mem_append, not_or]
          exact ⟨hk, hp⟩
        unfold addPrivate
        rw [if_neg (fun h => hn ((known_iff _ _).mp h)), addObject_front _ _ _ hn]
        rfl
      rw [h1]
      obtain ⟨G', hf, ha⟩ := ih (⟨p, false, false, none⟩ :: G) (by
        simp only [paths, List.map_cons, List.nodup_cons]
        exact ⟨hk, hG⟩) hB'
      refine ⟨G', hf, ha.nodup, ?_, ?_, fun o ho => ha.kept o (by simp [ho]), ?_⟩
      · intro o ho
        rcases ha.only o ho with hm | ⟨h1, h2, h3⟩
        · rcases List.mem_cons.mp hm with rfl | hm
          · exact .inr ⟨by simp, hk, rfl⟩
          · exact .inl hm
        · simp only [paths, List.map_cons, List.mem_cons, not_or] at h2
          exact .inr ⟨by simp [h1], h2.2, h3⟩
      · intro x hx
        rcases List.mem_cons.mp hx with rfl | hx
        · obtain ⟨N, hN, _⟩ := ha.front
          rw [hN]
          exact List.mem_append_right _ (by simp)
        · exact ha.all x hx
      · obtain ⟨N, hN, hN'⟩ := ha.front
        refine ⟨N ++ [p], by rw [hN]; simp [paths], ?_⟩
        intro x hx
        rcases List.mem_append.mp hx with hx | hx
        · simp [hN' x hx]
        · simp_all

def ext (p : Str) : Obj := ⟨p, true, false, none⟩

/-- What adding external libraries does to the second part. -/
structure AddedExternal (c : Cfg) (libs : List Str) (B B' : List Obj) : Prop where
  nodup : c.dedup = true → (paths B').Nodup
  only : ∀ o ∈ B', o ∈ B ∨ ∃ p ∈ libs, o = ext p
  all : ∀ p ∈ libs, p ∈ paths B'
  kept : ∀ p ∈ paths B, p ∈ paths B'
  last : libs.Nodup → ∃ R, paths B' = R ++ libs

theorem fold_external (c : Cfg) (G : List Obj) : ∀ (libs : List Str) (B : List Obj), (c.dedup = true → (paths B).Nodup) →
    (∀ p ∈ libs, p ∉ paths G) →
    ∃ B', addExternal c libs (G ++ B) = G ++ B' ∧ AddedExternal c libs B B' := by
  intro libs
  induction libs using Verif.snoc_induction with
  | nil =>
    intro B hB _
    exact ⟨B, rfl, hB, fun o ho => .inl ho, by simp, fun p hp => hp, fun _ => ⟨paths B, by simp⟩⟩
  | append_singleton libs p ih =>
    intro B hB hG
    obtain ⟨B₁, h1, ha⟩ := ih B hB (fun x hx => hG x (by simp [hx]))
    have hp : p ∉ paths G := hG p (by simp)
    unfold addExternal at h1 ⊢
    rw [List.foldl_append, h1]
    simp only [List.foldl_cons, List.foldl_nil]
    refine ⟨(if c.dedup then B₁.filter (fun x => x.path ≠ p) else B₁) ++ [ext p], ?_, ?_, ?_, ?_, ?_, ?_⟩
    · unfold addObject
      simp only [Bool.false_eq_true, if_false]
      split
      · rw [List.filter_append, filter_id _ _ hp, List.append_assoc]
        rfl
      · rw [List.append_assoc]
        rfl
    · intro hd
      rw [if_pos hd]
      simp only [paths, List.map_append, List.map_cons, List.map_nil]
      rw [List.nodup_append]
      refine ⟨(List.Sublist.map _ List.filter_sublist).nodup (ha.nodup hd), by simp, ?_⟩
      intro x hx y hy
      obtain ⟨o, ho, rfl⟩ := List.mem_map.mp hx
      have := (List.mem_filter.mp ho).2
      simp only [decide_eq_true_eq] at this
      simp only [List.mem_cons, List.not_mem_nil, or_false] at hy
      subst hy
      exact this
    · intro o ho
      rcases List.mem_append.mp ho with ho | ho
      · have : o ∈ B₁ := by
          split at ho
          · exact (List.mem_filter.mp ho).1
          · exact ho
        rcases ha.only o this with h | ⟨x, hx, rfl⟩
        · exact .inl h
        · exact .inr ⟨x, by simp [hx], rfl⟩
      · simp only [List.mem_cons, List.not_mem_nil, or_false] at ho
        exact .inr ⟨p, by simp, ho⟩
    · intro x hx
      simp only [paths, List.map_append, List.mem_append]
      by_cases hxp : x = p
      · subst hxp
        exact .inr (by simp [ext])
      · left
        have hx' : x ∈ paths B₁ := by
          rcases List.mem_append.mp hx with h | h
          · exact ha.all x h
          · simp_all
        split
        · obtain ⟨o, ho, rfl⟩ := List.mem_map.mp hx'
          exact List.mem_map_of_mem (List.mem_filter.mpr ⟨ho, by simpa using hxp⟩)
        · exact hx'
    · intro x hx
      simp only [paths, List.map_append, List.mem_append]
      by_cases hxp : x = p
      · subst hxp
        exact .inr (by simp [ext])
      · left
        have hx' := ha.kept x hx
        split
        · obtain ⟨o, ho, rfl⟩ := List.mem_map.mp hx'
          exact List.mem_map_of_mem (List.mem_filter.mpr ⟨ho, by simpa using hxp⟩)
        · exact hx'
    · intro hn
      rw [List.nodup_append] at hn
      obtain ⟨R, hR⟩ := ha.last hn.1
      simp only [paths, List.map_append, List.map_cons, List.map_nil]
      split
      · have : (B₁.filter (fun x => decide (x.path ≠ p))).map (·.path) = (paths B₁).filter (fun x => decide (x ≠ p)) := by
          rw [paths, List.filter_map]
          rfl
        rw [this, hR, List.filter_append]
        refine ⟨R.filter (fun x => decide (x ≠ p)), ?_⟩
        rw [List.append_assoc]
        congr 1
        congr 1
        rw [List.filter_eq_self]
        intro x hx
        simpa using hn.2.2 x hx p (by simp)
      · exact ⟨R, by rw [show B₁.map (·.path) = R ++ libs from hR, List.append_assoc]; rfl⟩

end Verif.Link
