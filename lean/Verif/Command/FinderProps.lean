import Verif.Command.EnvProps
/-! # C76: the program of a command -/

namespace Verif.Command
open Verif.Shell (Os Str)

theorem splitSkip_parts (c : Char) (s cur : Str) (hc : c ∉ cur) :
    ∃ parts : List Str, (∀ p ∈ parts, c ∉ p) ∧ parts ≠ [] ∧ cur ++ s = (parts.intersperse [c]).flatten ∧
      splitSkip c cur s = parts.filter (· ≠ []) := by
  induction s generalizing cur with
  | nil =>
    refine ⟨[cur], by simpa using hc, by simp, by simp, ?_⟩
    unfold splitSkip
    by_cases h : cur = [] <;> simp [h]
  | cons x xs ih =>
    unfold splitSkip
    by_cases hx : x = c
    · subst hx
      rw [if_pos rfl]
      obtain ⟨parts, h1, h2, h3, h4⟩ := ih [] (by simp)
      refine ⟨cur :: parts, ?_, by simp, ?_, ?_⟩
      · intro p hp
        rcases List.mem_cons.mp hp with rfl | hp
        · exact hc
        · exact h1 p hp
      · cases parts with
        | nil => exact absurd rfl h2
        | cons q qs =>
          rw [show List.intersperse [x] (cur :: q :: qs) = cur :: [x] :: List.intersperse [x] (q :: qs) from rfl]
          rw [List.flatten_cons, List.flatten_cons, ← h3]
          simp
      · rw [h4]
        by_cases h : cur = [] <;> simp [h]
    · rw [if_neg hx]
      obtain ⟨parts, h1, h2, h3, h4⟩ := ih (cur ++ [x]) (by
        intro hm
        rcases List.mem_append.mp hm with hm | hm
        · exact hc hm
        · exact hx (List.mem_singleton.mp hm).symm)
      exact ⟨parts, h1, h2, by rw [← h3]; simp, h4⟩

theorem splitSkip_directories (c : Char) (s : Str) : Spec.Directories c s (splitSkip c [] s) := by
  obtain ⟨parts, h1, h2, h3, h4⟩ := splitSkip_parts c s [] (by simp)
  exact ⟨parts, h1, h2, h3, h4⟩

theorem intersperse_split (c : Char) (p : Str) (ps : List Str) (q : Str) (qs : List Str) (hp : c ∉ p) (hq : c ∉ q)
    (h : ((p :: ps).intersperse [c]).flatten = ((q :: qs).intersperse [c]).flatten) :
    p = q ∧ ((ps = [] ∧ qs = []) ∨
      (ps ≠ [] ∧ qs ≠ [] ∧ (ps.intersperse [c]).flatten = (qs.intersperse [c]).flatten)) := by
  have form : ∀ (a : Str) (as : List Str), ((a :: as).intersperse [c]).flatten =
      a ++ (if as = [] then [] else c :: (as.intersperse [c]).flatten) := by
    intro a as
    cases as with
    | nil => simp [List.intersperse]
    | cons b bs =>
      rw [show List.intersperse [c] (a :: b :: bs) = a :: [c] :: List.intersperse [c] (b :: bs) from rfl]
      simp
  rw [form, form] at h
  have key : ∀ (a b s t : Str), c ∉ a → c ∉ b → (s = [] ∨ ∃ r, s = c :: r) → (t = [] ∨ ∃ r, t = c :: r) →
      a ++ s = b ++ t → a = b ∧ s = t := by
    intro a
    induction a with
    | nil =>
      intro b s t _ hb hs ht he
      cases b with
      | nil => exact ⟨rfl, he⟩
      | cons d b =>
        rcases hs with rfl | ⟨r, rfl⟩
        · simp at he
        · simp only [List.nil_append, List.cons_append, List.cons.injEq] at he
          exact absurd (by rw [he.1]; simp) hb
    | cons d a ih =>
      intro b s t ha hb hs ht he
      cases b with
      | nil =>
        rcases ht with rfl | ⟨r, rfl⟩
        · simp at he
        · simp only [List.nil_append, List.cons_append, List.cons.injEq] at he
          exact absurd (by rw [he.1]; simp) ha
      | cons d' b =>
        simp only [List.cons_append, List.cons.injEq] at he
        obtain ⟨h1, h2⟩ := ih b s t (fun h => ha (by simp [h])) (fun h => hb (by simp [h])) hs ht he.2
        exact ⟨by rw [he.1, h1], h2⟩
  obtain ⟨h1, h2⟩ := key p q _ _ hp hq (by split <;> simp) (by split <;> simp) h
  refine ⟨h1, ?_⟩
  by_cases a : ps = []
  · by_cases b : qs = []
    · exact .inl ⟨a, b⟩
    · rw [if_pos a, if_neg b] at h2; simp at h2
  · by_cases b : qs = []
    · rw [if_neg a, if_pos b] at h2; simp at h2
    · rw [if_neg a, if_neg b] at h2
      exact .inr ⟨a, b, (List.cons.inj h2).2⟩

theorem parts_unique (c : Char) (ps qs : List Str) (hp : ∀ p ∈ ps, c ∉ p) (hq : ∀ p ∈ qs, c ∉ p) (hps : ps ≠ [])
    (hqs : qs ≠ []) (h : (ps.intersperse [c]).flatten = (qs.intersperse [c]).flatten) : ps = qs := by
  induction ps generalizing qs with
  | nil => exact absurd rfl hps
  | cons p ps ih =>
    cases qs with
    | nil => exact absurd rfl hqs
    | cons q qs =>
      obtain ⟨h1, h2⟩ := intersperse_split c p ps q qs (hp p (by simp)) (hq q (by simp)) h
      rcases h2 with ⟨rfl, rfl⟩ | ⟨a, b, e⟩
      · rw [h1]
      · rw [h1, ih qs (fun x hx => hp x (by simp [hx])) (fun x hx => hq x (by simp [hx])) a b e]

/-- The directories in a text are determined. -/
theorem directories_unique {c : Char} {s : Str} {a b : List Str} (ha : Spec.Directories c s a) (hb : Spec.Directories c s b) :
    a = b := by
  obtain ⟨pa, h1, h2, h3, rfl⟩ := ha
  obtain ⟨pb, h4, h5, h6, rfl⟩ := hb
  rw [parts_unique c pa pb h1 h4 h2 h5 (h3.symm.trans h6)]

theorem prepareDir_append (wd d program : Str) :
    prepareDir wd d ++ program = Spec.inDirectory (if d = ['.'] then wd else d) program := by
  unfold prepareDir Spec.inDirectory
  simp only
  generalize (if d = ['.'] then wd else d) = e
  cases hl : e.getLast? with
  | none =>
    have : e = [] := List.getLast?_eq_none_iff.mp hl
    simp [this]
  | some c =>
    have hne : e ≠ [] := by rintro rfl; simp at hl
    by_cases h1 : c = '/'
    · simp [h1, hne]
    · by_cases h2 : c = '\\'
      · simp [h2, hne]
      · simp [h1, h2, hne]

theorem searchDirs_found (exec : Str → Bool) (wd program : Str) (dirs : List Str) :
    Spec.Found exec dirs wd program (searchDirs exec wd program dirs) := by
  induction dirs with
  | nil => exact .inr ⟨rfl, by simp⟩
  | cons d ds ih =>
    unfold searchDirs
    simp only
    rw [prepareDir_append]
    by_cases he : exec (Spec.inDirectory (if d = ['.'] then wd else d) program) = true
    · rw [if_pos he]
      exact .inl ⟨[], d, ds, rfl, rfl, he, by simp⟩
    · rw [if_neg he]
      rcases ih with ⟨before, d', after, h1, h2, h3, h4⟩ | ⟨h1, h2⟩
      · refine .inl ⟨d :: before, d', after, by rw [h1]; rfl, h2, h3, ?_⟩
        intro x hx
        rcases List.mem_cons.mp hx with rfl | hx
        · simpa using he
        · exact h4 x hx
      · refine .inr ⟨h1, ?_⟩
        intro x hx
        rcases List.mem_cons.mp hx with rfl | hx
        · simpa using he
        · exact h2 x hx

/-! ### Histories -/

/-- One lookup: what is executable at the time, the program and the working directory of the command. -/
structure Lookup where
  exec : Str → Bool
  program : Str
  workingDir : Str

/-- The commands of a product look for their programs one after the other; the last argument is the result of the last one. -/
def lookups (pathVar : Str) : Cache → List Lookup → Cache
  | c, [] => c
  | c, l :: ls => lookups pathVar (findExecutable l.exec pathVar c l.program l.workingDir).2 ls

/-- **C76.** A program given by an absolute path is the one started, whatever was looked for before. -/
theorem C76_absolute (exec : Str → Bool) (pathVar : Str) (cache : Cache) (rest wd : Str) :
    (findExecutable exec pathVar cache ('/' :: rest) wd).1 = '/' :: rest := rfl

theorem find_relative (exec : Str → Bool) (pathVar : Str) (c : Cache) (p wd : Str) (h : p.head? ≠ some '/') :
    findExecutable exec pathVar c p wd = findInPath exec pathVar c p wd := by
  unfold findExecutable
  split
  · simp at h
  · rfl

theorem cached_cons (c : Cache) (k v k' : Str) : cached ((k, v) :: c) k' = if k = k' then v else cached c k' := by
  unfold cached
  rw [List.find?_cons]
  by_cases h : k = k'
  · simp [h]
  · rw [if_neg h, show (k == k') = false by simpa using h]

/-- Everything cached is what a lookup would find now. -/
def Fresh (exec : Str → Bool) (pathVar wd : Str) (c : Cache) : Prop :=
  ∀ p, cached c p ≠ [] → cached c p = searchDirs exec wd p (splitSkip ':' [] pathVar)

theorem searchDirs_wd (exec : Str → Bool) (wd wd' p : Str) (dirs : List Str) (h : wd = wd' ∨ ['.'] ∉ dirs) :
    searchDirs exec wd p dirs = searchDirs exec wd' p dirs := by
  rcases h with rfl | h
  · rfl
  · induction dirs with
    | nil => rfl
    | cons d ds ih =>
      simp only [List.mem_cons, not_or] at h
      have hd : prepareDir wd d = prepareDir wd' d := by unfold prepareDir; rw [if_neg (Ne.symm h.1), if_neg (Ne.symm h.1)]
      unfold searchDirs
      rw [hd, ih h.2]

theorem fresh_step {exec : Str → Bool} {pathVar wd : Str} {c : Cache} (hf : Fresh exec pathVar wd c) (p wd' : Str)
    (hw : wd = wd' ∨ ['.'] ∉ splitSkip ':' [] pathVar) : Fresh exec pathVar wd (findExecutable exec pathVar c p wd').2 := by
  by_cases hh : p.head? = some '/'
  · obtain ⟨r, rfl⟩ : ∃ r, p = '/' :: r := by cases p <;> simp_all
    exact hf
  · rw [find_relative _ _ _ _ _ hh]
    unfold findInPath
    split
    · exact hf
    · intro q hq
      rw [cached_cons] at hq ⊢
      split
      · rename_i e; subst e; exact (searchDirs_wd _ _ _ _ _ hw).symm
      · rename_i e; rw [if_neg e] at hq; exact hf q hq

/-- **C76 (partial).** As long as the files do not change, and the commands have the same working directory or PATH does not
contain `.`, every command gets the program in the first directory of PATH that has it, whatever was looked for before. Missing:
see the findings below. -/
theorem C76_first_in_path_partial (exec : Str → Bool) (pathVar wd program : Str) (dirs : List Str) (earlier : List Lookup)
    (hrel : program.head? ≠ some '/') (hdirs : Spec.Directories ':' pathVar dirs)
    (h : ∀ l ∈ earlier, l.exec = exec ∧ (l.workingDir = wd ∨ ['.'] ∉ dirs)) :
    Spec.Found exec dirs wd program (findExecutable exec pathVar (lookups pathVar [] earlier) program wd).1 := by
  have hd := directories_unique (splitSkip_directories ':' pathVar) hdirs
  have key : ∀ (ls : List Lookup) (c : Cache), Fresh exec pathVar wd c →
      (∀ l ∈ ls, l.exec = exec ∧ (l.workingDir = wd ∨ ['.'] ∉ dirs)) → Fresh exec pathVar wd (lookups pathVar c ls) := by
    intro ls
    induction ls with
    | nil => intro c hc _; exact hc
    | cons l ls ih =>
      intro c hc hl
      obtain ⟨h1, h2⟩ := hl l (by simp)
      refine ih _ ?_ (fun l' hl' => hl l' (by simp [hl']))
      rw [h1]
      refine fresh_step hc _ _ ?_
      rw [hd]
      exact h2.imp Eq.symm id
  have hf := key earlier [] (fun p hp => absurd rfl hp) h
  rw [find_relative _ _ _ _ _ hrel]
  unfold findInPath
  split
  · rename_i hc
    simp only
    rw [hf program hc, hd]
    exact searchDirs_found _ _ _ _
  · simp only
    rw [hd]
    exact searchDirs_found _ _ _ _

/-- **C76 finding.** If PATH contains `.`, a command gets the program of the working directory of an earlier command of the
product, although its own working directory has the program. -/
theorem C76_other_working_directory :
    let exec := fun p => p == "/a/tool".toList || p == "/b/tool".toList
    let cache := lookups ".:/usr/bin".toList [] [⟨exec, "tool".toList, "/a".toList⟩]
    (findExecutable exec ".:/usr/bin".toList cache "tool".toList "/b".toList).1 = "/a/tool".toList := by
  decide +kernel

/-- **C76 finding.** A program that was not found is not looked for again: a command of the same product gets the bare name even
if the program has been installed in a directory of PATH meanwhile. -/
theorem C76_not_found_again (exec exec' : Str → Bool) (pathVar wd wd' program : Str) (hne : program ≠ [])
    (hrel : program.head? ≠ some '/') (dirs : List Str) (hdirs : Spec.Directories ':' pathVar dirs)
    (hno : ∀ d ∈ dirs, exec (Spec.inDirectory (if d = ['.'] then wd else d) program) = false) :
    (findExecutable exec' pathVar (lookups pathVar [] [⟨exec, program, wd⟩]) program wd').1 = program := by
  have hs : searchDirs exec wd program (splitSkip ':' [] pathVar) = program := by
    rw [directories_unique (splitSkip_directories ':' pathVar) hdirs]
    rcases searchDirs_found exec wd program dirs with ⟨_, d, _, h0, h1, h, _⟩ | ⟨h, _⟩
    · rw [h1] at h
      rw [hno d (by rw [h0]; simp)] at h
      exact absurd h (by decide)
    · exact h
  simp only [lookups]
  rw [find_relative _ _ _ _ _ hrel, find_relative _ _ _ _ _ hrel]
  have h1 : (findInPath exec pathVar [] program wd).2 = [(program, program)] := by
    unfold findInPath
    rw [if_neg (by simp [cached])]
    simp only [hs]
  rw [h1]
  unfold findInPath
  have h2 : cached [(program, program)] program = program := by rw [cached_cons, if_pos rfl]
  rw [h2, if_pos hne]

/-- **C76 finding.** The program is not looked for in the PATH its process gets: here the command puts `/opt` first, which has
the program, but the one in `/usr` is started. -/
theorem C76_own_path_ignored :
    let exec := fun p => p == "/opt/tool".toList || p == "/usr/tool".toList
    let env : Env := [("PATH".toList, "/usr".toList)]
    let c : Command := { program := "tool".toList, arguments := [], environment := fromList .unix ["PATH=/opt".toList] }
    let p := (launch exec (fun _ => none) [] env env [] c).1
    lookup .unix p.environment "PATH".toList = some "/opt:/usr".toList ∧ p.program = "/usr/tool".toList := by
  decide +kernel

/-- **C76 finding.** A relative path is also looked for below the directories of PATH only, not in the working directory: the
program `./gen` of a command with the working directory `/src` is `/usr/./gen`. -/
theorem C76_relative_path :
    let exec := fun p => p == "/src/./gen".toList || p == "/usr/./gen".toList
    (findExecutable exec "/usr".toList [] "./gen".toList "/src".toList).1 = "/usr/./gen".toList := by
  decide +kernel

end Verif.Command
