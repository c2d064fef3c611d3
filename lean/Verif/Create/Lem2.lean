import Verif.Create.Lem1
/-!
# C107: lemmas about reading what was written
-/
namespace Verif.Create
open Verif.Literal (litStr)

abbrev Out := List ((List Str × Str) × Item)

/-- What is in one directory. -/
def atDir (out : Out) (q : List Str) : Out := out.filter (fun x => x.1.1 = q)

theorem atDir_append (a b : Out) (q : List Str) : atDir (a ++ b) q = atDir a q ++ atDir b q := List.filter_append ..

theorem lookup_atDir (out : Out) (q : List Str) (f : Str) : out.lookup (q, f) = (atDir out q).lookup (q, f) := by
  induction out with
  | nil => rfl
  | cons x out ih =>
    obtain ⟨⟨d, g⟩, i⟩ := x
    unfold atDir at ih ⊢
    by_cases h : d = q
    · rw [List.filter_cons, if_pos (by simpa using h), List.lookup_cons, List.lookup_cons, ih]
    · rw [List.filter_cons, if_neg (by simpa using h), List.lookup_cons, ih]
      have : ((q, f) == (d, g)) = false := by
        rw [beq_eq_false_iff_ne]
        intro hh
        exact h (Prod.mk.inj hh).1.symm
      rw [this]

mutual
theorem keys {c : Cfg} : ∀ (p : Proj) (path : List Str), ∀ x ∈ serialize c path p, path <+: x.1.1
  | .mk n fs subs, path, x, h => by
    rw [serialize] at h
    simp only at h
    split at h
    · rw [List.mem_singleton] at h
      subst h
      exact List.prefix_refl _
    · rcases List.mem_cons.mp h with rfl | h
      · exact List.prefix_refl _
      · obtain ⟨p, _, h⟩ := keysAll subs path x h
        exact (List.prefix_append path [p.name]).trans h
theorem keysAll {c : Cfg} : ∀ (l : List Proj) (path : List Str), ∀ x ∈ serializeAll c path l,
    ∃ p ∈ l, path ++ [p.name] <+: x.1.1
  | [], path, x, h => by cases h
  | p :: l, path, x, h => by
    rw [serializeAll] at h
    rcases List.mem_append.mp h with h | h
    · exact ⟨p, by simp, keys p _ x h⟩
    · obtain ⟨q, hq, h⟩ := keysAll l path x h
      exact ⟨q, by simp [hq], h⟩
end

theorem prefix_name {path q : List Str} {a b : Str} (h1 : path ++ [a] <+: q) (h2 : path ++ [b] <+: q) : a = b := by
  obtain ⟨s, rfl⟩ := h1
  obtain ⟨t, ht⟩ := h2
  rw [List.append_assoc, List.append_assoc] at ht
  have := List.append_cancel_left ht
  exact (List.cons.inj this).1.symm

theorem atDir_nil {out : Out} {q : List Str} (h : ∀ x ∈ out, x.1.1 ≠ q) : atDir out q = [] := by
  unfold atDir
  rw [List.filter_eq_nil_iff]
  intro x hx
  simpa using h x hx

theorem atDir_child {c : Cfg} {path q : List Str} : ∀ (l : List Proj), (l.map Proj.name).Nodup → ∀ p ∈ l,
    path ++ [p.name] <+: q → atDir (serializeAll c path l) q = atDir (serialize c (path ++ [p.name]) p) q := by
  intro l
  induction l with
  | nil => intro _ p h; cases h
  | cons a l ih =>
    intro hn p hp hq
    rw [List.map_cons, List.nodup_cons] at hn
    rw [serializeAll, atDir_append]
    rcases List.mem_cons.mp hp with rfl | hp
    · have : atDir (serializeAll c path l) q = [] := by
        apply atDir_nil
        intro x hx he
        obtain ⟨b, hb, h⟩ := keysAll l path x hx
        rw [he] at h
        exact hn.1 (prefix_name hq h ▸ List.mem_map_of_mem hb)
      rw [this, List.append_nil]
    · have : atDir (serialize c (path ++ [a.name]) a) q = [] := by
        apply atDir_nil
        intro x hx he
        have h := keys a _ x hx
        rw [he] at h
        exact hn.1 (prefix_name h hq ▸ List.mem_map_of_mem hp)
      rw [this, List.nil_append]
      exact ih hn.2 p hp hq

theorem no_child {path q : List Str} {a : Str} (h : path ++ [a] <+: q) : path ≠ q := by
  rintro rfl
  have := h.length_le
  simp at this
  omega

/-- The file for a project. -/
def Proj.file (p : Proj) : Str := baseName p.name ++ ".qbs".toList

theorem complete_base (n : Str) : completeBaseName (baseName n ++ ".qbs".toList) = baseName n := by
  have hn : '.' ∉ baseName n := by
    unfold baseName
    induction n with
    | nil => simp
    | cons a n ih =>
      rw [List.takeWhile_cons]
      split
      · rename_i h
        intro hm
        rcases List.mem_cons.mp hm with rfl | hm
        · simp at h
        · exact ih hm
      · simp
  unfold completeBaseName
  have h1 : '.' ∈ baseName n ++ ".qbs".toList := List.mem_append_right _ (by decide)
  rw [if_pos h1, List.reverse_append]
  have : ".qbs".toList.reverse = ['s', 'b', 'q', '.'] := by decide
  rw [this]
  simp

mutual
/-- The names of the products. -/
def Proj.products (c : Cfg) : Proj → List Str
  | .mk n fs subs => if !fs.isEmpty || c.flat then [baseName n] else productsAll c subs
def productsAll (c : Cfg) : List Proj → List Str
  | [] => []
  | p :: l => p.products c ++ productsAll c l
end

theorem serialize_at {c : Cfg} (p : Proj) (path : List Str) : ∃ i, atDir (serialize c path p) path = [((path, p.file), i)] := by
  cases p with
  | mk n fs subs =>
    rw [serialize]
    simp only
    split
    · exact ⟨_, by unfold atDir; rw [List.filter_cons, if_pos (by simp)]; rfl⟩
    · refine ⟨.project (subs.map (fun p => litStr p.name)), ?_⟩
      have : atDir (serializeAll c path subs) path = [] := by
        apply atDir_nil
        intro x hx he
        obtain ⟨b, _, h⟩ := keysAll subs path x hx
        exact no_child h he.symm
      unfold atDir at this ⊢
      rw [List.filter_cons, if_pos (by simp), this]
      rfl

section
variable {c : Cfg} {dirs : List Str → List Str}

/-- Reading the projects below. -/
def loadSubs (out : Out) (dirs : List Str → List Str) (n : Nat) (path : List Str) (names : List Str) :
    Option (List (List Product)) :=
  names.mapM (fun s => match qbsNames out dirs (path ++ [s]) with
    | [f'] => load out dirs n (path ++ [s]) f'
    | _ => none)

mutual
theorem load_ok (hd : ∀ q, (dirs q).filter isQbs = []) : ∀ (p : Proj) (path : List Str) (out : Out), p.Good →
    (∀ q, path <+: q → atDir out q = atDir (serialize c path p) q) →
    ∃ ps, Loads out dirs path p.file ps ∧ ps.flatMap Product.sources = p.listed path ∧
      ps.map Product.name = p.products c
  | .mk n fs subs, path, out, hg, ho => by
    have hg' := hg
    rw [Proj.Good] at hg
    obtain ⟨h1, h2, h3, h4⟩ := hg
    have hat := ho path (List.prefix_refl _)
    have hlook : ∀ f, out.lookup (path, f) = (atDir (serialize c path (.mk n fs subs)) path).lookup (path, f) := by
      intro f
      rw [lookup_atDir, hat]
    by_cases hp : (!fs.isEmpty || c.flat) = true
    · have hser : serialize c path (.mk n fs subs) = [((path, Proj.file (.mk n fs subs)),
          .product (getFlags (.mk n fs subs)).app (getFlags (.mk n fs subs)).dep (fs.map (fun f => litStr f.name))
            (groupsAll [] subs))] := by
        rw [serialize]
        exact if_pos hp
      obtain ⟨gs, hgs, hl⟩ := groupsAll_ok subs path [] [] h4 (fun c h => by cases h) (fun f => by simp)
      refine ⟨[⟨baseName n, fs.map (fun f => file path f.name) ++ gs.flatten⟩], ⟨1, ?_⟩, ?_, ?_⟩
      · intro k hk
        obtain ⟨k, rfl⟩ : ∃ m, k = m + 1 := ⟨k - 1, by omega⟩
        rw [load, hlook, hser]
        have : (atDir [((path, Proj.file (.mk n fs subs)), Item.product (getFlags (.mk n fs subs)).app
            (getFlags (.mk n fs subs)).dep (fs.map (fun f => litStr f.name)) (groupsAll [] subs))] path).lookup
            (path, Proj.file (.mk n fs subs)) = some (Item.product (getFlags (.mk n fs subs)).app
            (getFlags (.mk n fs subs)).dep (fs.map (fun f => litStr f.name)) (groupsAll [] subs)) := by
          unfold atDir
          rw [List.filter_cons, if_pos (by simp), List.lookup_cons]
          simp
        rw [this]
        simp only [files_text h2, hgs, List.map_map]
        rw [show completeBaseName (Proj.file (.mk n fs subs)) = baseName n from complete_base n]
        rfl
      · rw [Proj.listed, List.flatMap_cons, List.flatMap_nil, List.append_nil, hl, List.append_nil]
      · rw [Proj.products, if_pos hp]
        rfl
    · have hser : serialize c path (.mk n fs subs) = ((path, Proj.file (.mk n fs subs)),
          .project (subs.map (fun p => litStr p.name))) :: serializeAll c path subs := by
        rw [serialize]
        exact if_neg hp
      have hfs : fs = [] := by
        cases fs with
        | nil => rfl
        | cons f fs => exact absurd rfl hp
      obtain ⟨pss, ⟨N, hN⟩, hl, hnames⟩ := loadAll_ok hd subs path out h4 (by
        intro p hp q hq
        rw [ho q ((List.prefix_append _ _).trans hq), hser]
        show atDir ([_] ++ _) q = _
        rw [atDir_append, atDir_nil (by
          intro x hx
          rw [List.mem_singleton] at hx
          subst hx
          exact no_child hq), List.nil_append]
        exact atDir_child subs h3 p hp hq)
      refine ⟨pss.flatten, ⟨N + 1, ?_⟩, ?_, ?_⟩
      · intro k hk
        obtain ⟨k, rfl⟩ : ∃ m, k = m + 1 := ⟨k - 1, by omega⟩
        rw [load, hlook, hser]
        have : (atDir (((path, Proj.file (.mk n fs subs)), Item.project (subs.map (fun p => litStr p.name))) ::
            serializeAll c path subs) path).lookup (path, Proj.file (.mk n fs subs)) =
            some (.project (subs.map (fun p => litStr p.name))) := by
          unfold atDir
          rw [List.filter_cons, if_pos (by simp), List.lookup_cons]
          simp
        rw [this]
        have hm : (subs.map (fun p => litStr p.name)).mapM text = some (subs.map Proj.name) := by
          rw [List.mapM_map]
          refine mapM_some _ Proj.name subs (fun p hp => text_lit ?_)
          have := (goodAll_iff _).mp h4 p hp
          cases p with
          | mk m a b => rw [Proj.Good] at this; exact this.1
        simp only [hm]
        show Option.map List.flatten (loadSubs out dirs k path (subs.map Proj.name)) = _
        rw [hN k (by omega)]
        rfl
      · rw [Proj.listed, hfs, List.map_nil, List.nil_append, hl]
      · rw [Proj.products, if_neg hp, hnames]
theorem loadAll_ok (hd : ∀ q, (dirs q).filter isQbs = []) : ∀ (l : List Proj) (path : List Str) (out : Out), goodAll l →
    (∀ p ∈ l, ∀ q, path ++ [p.name] <+: q → atDir out q = atDir (serialize c (path ++ [p.name]) p) q) →
    ∃ pss, (∃ N, ∀ n, N ≤ n → loadSubs out dirs n path (l.map Proj.name) = some pss) ∧
      pss.flatten.flatMap Product.sources = listedAll path l ∧ pss.flatten.map Product.name = productsAll c l
  | [], path, out, _, _ => ⟨[], ⟨0, fun _ _ => rfl⟩, rfl, rfl⟩
  | p :: l, path, out, hg, ho => by
    obtain ⟨ps, ⟨N, hN⟩, h1, h2⟩ := load_ok hd p (path ++ [p.name]) out hg.1 (ho p (by simp))
    obtain ⟨pss, ⟨M, hM⟩, h3, h4⟩ := loadAll_ok hd l path out hg.2 (fun q hq => ho q (by simp [hq]))
    refine ⟨ps :: pss, ⟨N + M, ?_⟩, ?_, ?_⟩
    · intro n hn
      have hq : qbsNames out dirs (path ++ [p.name]) = [p.file] := by
        unfold qbsNames
        rw [hd, List.append_nil]
        have := ho p (by simp) _ (List.prefix_refl _)
        unfold atDir at this
        rw [this]
        obtain ⟨i, hi⟩ := serialize_at (c := c) p (path ++ [p.name])
        unfold atDir at hi
        rw [hi]
        rfl
      have := hM n (by omega)
      unfold loadSubs at this ⊢
      rw [List.map_cons, List.mapM_cons, this, hq]
      simp only [hN n (by omega)]
      rfl
    · rw [List.flatten_cons, List.flatMap_append, h1, h3, listedAll]
    · rw [List.flatten_cons, List.map_append, h2, h4, productsAll]
end

end

end Verif.Create
