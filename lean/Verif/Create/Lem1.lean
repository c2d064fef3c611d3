import Verif.Create.Spec
import Verif.Literal.Props
/-!
# C107: lemmas
-/
namespace Verif.Create
open Verif.Literal (litStr)

theorem text_lit {s : Str} (h : Literal.OneLine s) : text (litStr s) = some s := by
  unfold text
  rw [(Literal.C38_string_iff s).mpr h]

theorem fileText_lit {s : Str} (h : Literal.OneLine s) (h' : isPattern s = false) : fileText (litStr s) = some s := by
  unfold fileText
  rw [text_lit h]
  simp [h']

theorem mapM_some {α β : Type} (f : α → Option β) (g : α → β) : ∀ (l : List α), (∀ a ∈ l, f a = some (g a)) →
    l.mapM f = some (l.map g) := by
  intro l
  induction l with
  | nil => intro _; rfl
  | cons a l ih =>
    intro h
    rw [List.mapM_cons, h a (by simp), ih (fun b hb => h b (by simp [hb]))]
    rfl

theorem files_text {fs : List File} (h : ∀ f ∈ fs, Literal.OneLine f.name ∧ isPattern f.name = false) :
    (fs.map (fun f => litStr f.name)).mapM fileText = some (fs.map File.name) := by
  rw [List.mapM_map]
  exact mapM_some _ File.name fs (fun f hf => fileText_lit (h f hf).1 (h f hf).2)

mutual
/-- The files of a project. -/
def Proj.listed (path : List Str) : Proj → List Str
  | .mk _ fs subs => fs.map (fun f => file path f.name) ++ listedAll path subs
def listedAll (path : List Str) : List Proj → List Str
  | [] => []
  | p :: l => p.listed (path ++ [p.name]) ++ listedAll path l
end

mutual
def Proj.Good : Proj → Prop
  | .mk n fs subs => Literal.OneLine n ∧ (∀ f ∈ fs, Literal.OneLine f.name ∧ isPattern f.name = false) ∧
      (subs.map Proj.name).Nodup ∧ goodAll subs
def goodAll : List Proj → Prop
  | [] => True
  | p :: l => p.Good ∧ goodAll l
end

theorem goodAll_iff (l : List Proj) : goodAll l ↔ ∀ p ∈ l, p.Good := by
  induction l with
  | nil => simp [goodAll]
  | cons p l ih => simp [goodAll, ih]

theorem GoodAll_iff (l : List Dir) : GoodAll l ↔ ∀ d ∈ l, d.Good := by
  induction l with
  | nil => simp [GoodAll]
  | cons p l ih => simp [GoodAll, ih]

theorem listedAll_eq (path : List Str) (l : List Proj) : listedAll path l = l.flatMap (fun p => p.listed (path ++ [p.name])) := by
  induction l with
  | nil => rfl
  | cons p l ih => rw [listedAll, ih, List.flatMap_cons]

/-! ## Collecting the files -/

theorem setup_name {c : Cfg} {d : Dir} {p : Proj} (h : setup c d = some p) : p.name = d.name := by
  cases d with
  | mk n fs ds =>
    rw [setup] at h
    split at h
    · cases h
    · split at h
      · cases h
      · cases h; rfl

theorem setupAll_names {c : Cfg} : ∀ {ds : List Dir} {ps : List Proj}, setupAll c ds = some ps →
    (ps.map Proj.name).Sublist (ds.map Dir.name) := by
  intro ds
  induction ds with
  | nil => intro ps h; cases h; exact List.Sublist.refl _
  | cons d ds ih =>
    intro ps h
    rw [setupAll] at h
    split at h
    · cases h
    · rename_i p hp
      split at h
      · cases h
      · rename_i qs hq
        cases h
        split
        · exact (ih hq).cons _
        · rw [List.map_cons, List.map_cons, setup_name hp]
          exact (ih hq).cons₂ _

theorem empty_listed {p : Proj} (h : p.isEmpty = true) (path : List Str) : p.listed path = [] := by
  cases p with
  | mk n fs subs =>
    simp only [Proj.isEmpty, Proj.files, Proj.subs, Bool.and_eq_true, List.isEmpty_iff] at h
    rw [Proj.listed, h.1, h.2]
    rfl

mutual
theorem setup_perm {c : Cfg} : ∀ (d : Dir) (p : Proj) (path : List Str), setup c d = some p →
    (p.listed path).Perm (d.sources c path)
  | .mk n fs ds, p, path, h => by
    rw [setup] at h
    split at h
    · cases h
    · split at h
      · cases h
      · rename_i subs hs
        cases h
        rw [Proj.listed, Dir.sources]
        refine List.Perm.append ((Common.isort_perm _ _).map _) ?_
        refine List.Perm.trans ?_ (setupAll_perm ds subs path hs)
        rw [listedAll_eq, listedAll_eq]
        exact (Common.isort_perm _ _).flatMap_right _
theorem setupAll_perm {c : Cfg} : ∀ (ds : List Dir) (ps : List Proj) (path : List Str), setupAll c ds = some ps →
    (listedAll path ps).Perm (sourcesAll c path ds)
  | [], ps, path, h => by cases h; exact List.Perm.refl _
  | d :: ds, ps, path, h => by
    rw [setupAll] at h
    split at h
    · cases h
    · rename_i p hp
      split at h
      · cases h
      · rename_i qs hq
        cases h
        rw [sourcesAll]
        have h1 := setup_perm d p (path ++ [d.name]) hp
        have h2 := setupAll_perm ds qs path hq
        split
        · rename_i he
          rw [empty_listed he] at h1
          have h1 := List.nil_perm.mp h1
          rw [h1, List.nil_append]
          exact h2
        · rw [listedAll, setup_name hp]
          exact h1.append h2
end

mutual
theorem setup_good {c : Cfg} : ∀ (d : Dir) (p : Proj), d.Good → setup c d = some p → p.Good
  | .mk n fs ds, p, hg, h => by
    rw [setup] at h
    split at h
    · cases h
    · split at h
      · cases h
      · rename_i subs hs
        cases h
        rw [Dir.Good] at hg
        obtain ⟨h1, h2, -, h3, h4⟩ := hg
        rw [Proj.Good]
        refine ⟨h1, ?_, ?_, ?_⟩
        · intro f hf
          rw [Common.mem_isort] at hf
          exact h2 f (List.mem_filter.mp hf).1
        · exact (((Common.isort_perm _ _).map Proj.name).nodup_iff).mpr ((setupAll_names hs).nodup h3)
        · rw [goodAll_iff]
          intro q hq
          rw [Common.mem_isort] at hq
          exact (goodAll_iff _).mp (setupAll_good ds subs h4 hs) q hq
theorem setupAll_good {c : Cfg} : ∀ (ds : List Dir) (ps : List Proj), GoodAll ds → setupAll c ds = some ps → goodAll ps
  | [], ps, _, h => by cases h; exact trivial
  | d :: ds, ps, hg, h => by
    rw [setupAll] at h
    split at h
    · cases h
    · rename_i p hp
      split at h
      · cases h
      · rename_i qs hq
        cases h
        have h1 := setup_good d p hg.1 hp
        have h2 := setupAll_good ds qs hg.2 hq
        split
        · exact h2
        · exact ⟨h1, h2⟩
end

/-! ## Groups -/

theorem str_append (p q : List Str) : str (p ++ q) = str p ++ str q := List.flatMap_append

mutual
theorem groups_ok : ∀ (p : Proj) (path rel' : List Str) (rel : Str), p.Good → Literal.OneLine rel →
    (∀ f, file path (rel ++ f) = file (path ++ rel') f) →
    ∃ gs, (groups rel p).mapM (groupFiles path) = some gs ∧ gs.flatten = p.listed (path ++ rel' ++ [p.name])
  | .mk n fs subs, path, rel', rel, hg, hr, hp => by
    rw [Proj.Good] at hg
    obtain ⟨h1, h2, _, h4⟩ := hg
    have hr' : Literal.OneLine (rel ++ n ++ ['/']) := by
      intro c hc
      simp only [List.mem_append, List.mem_singleton] at hc
      rcases hc with (hc | hc) | rfl
      · exact hr c hc
      · exact h1 c hc
      · decide
    have hp' : ∀ f, file path (rel ++ n ++ ['/'] ++ f) = file (path ++ (rel' ++ [n])) f := by
      intro f
      have : rel ++ n ++ ['/'] ++ f = rel ++ (n ++ '/' :: f) := by simp
      rw [this, hp]
      unfold file
      rw [← List.append_assoc path, str_append (path ++ rel')]
      simp [str]
    obtain ⟨gs, hgs, hl⟩ := groupsAll_ok subs path (rel' ++ [n]) (rel ++ n ++ ['/']) h4 hr' hp'
    have hone : groupFiles path ⟨litStr n, litStr (rel ++ n ++ ['/']), fs.map (fun f => litStr f.name)⟩ =
        some (fs.map (fun f => file (path ++ (rel' ++ [n])) f.name)) := by
      unfold groupFiles
      have hm : (fs.map (fun f => litStr f.name)).mapM fileText = some (fs.map File.name) := files_text h2
      simp only [hm, text_lit hr', List.map_map]
      congr 1
      apply List.map_congr_left
      intro f _
      exact hp' f.name
    refine ⟨fs.map (fun f => file (path ++ (rel' ++ [n])) f.name) :: gs, ?_, ?_⟩
    · rw [groups, List.mapM_cons, hone, hgs]
      rfl
    · rw [List.flatten_cons, hl, Proj.listed, List.append_assoc path]
      rfl
theorem groupsAll_ok : ∀ (l : List Proj) (path rel' : List Str) (rel : Str), goodAll l → Literal.OneLine rel →
    (∀ f, file path (rel ++ f) = file (path ++ rel') f) →
    ∃ gs, (groupsAll rel l).mapM (groupFiles path) = some gs ∧ gs.flatten = listedAll (path ++ rel') l
  | [], path, rel', rel, _, _, _ => ⟨[], rfl, rfl⟩
  | p :: l, path, rel', rel, hg, hr, hp => by
    obtain ⟨g1, e1, l1⟩ := groups_ok p path rel' rel hg.1 hr hp
    obtain ⟨g2, e2, l2⟩ := groupsAll_ok l path rel' rel hg.2 hr hp
    refine ⟨g1 ++ g2, ?_, ?_⟩
    · rw [groupsAll, List.mapM_append, e1, e2]
      rfl
    · rw [List.flatten_append, l1, l2, listedAll]
end

end Verif.Create
