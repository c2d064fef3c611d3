import Verif.Makefile.Lem3
/-!
# C103, C104: what a generated Makefile says
-/
namespace Verif.Makefile

open Verif.Makefile.Spec
open Verif.Shell.Spec (posix posixWords posixSpecial)

/-- The variables after the beginning of the file. -/
def varsOf (p : Project) : List (Str × Str) :=
  (if p.installRoot = [] then [] else [(Var.install.name, p.installRoot)]) ++
  [(Var.build.name, p.buildDir), (Var.src.name, p.srcDir), ("RM".toList, "rm -f".toList),
   ("INSTALL_PROGRAM".toList, "install -m 755 -p".toList), ("INSTALL_FILE".toList, "install -m 644 -p".toList)]

theorem vars_build (p : Project) : (varsOf p).lookup Var.build.name = some p.buildDir := by
  unfold varsOf; split <;> rfl

theorem vars_src (p : Project) : (varsOf p).lookup Var.src.name = some p.srcDir := by
  unfold varsOf; split <;> rfl

theorem vars_install (p : Project) (h : p.installRoot ≠ []) :
    (varsOf p).lookup Var.install.name = some p.installRoot := by
  unfold varsOf; rw [if_neg h]; rfl

theorem vars_rm (p : Project) : (varsOf p).lookup "RM".toList = some "rm -f".toList := by
  unfold varsOf; split <;> rfl

theorem vars_program (p : Project) :
    (varsOf p).lookup "INSTALL_PROGRAM".toList = some "install -m 755 -p".toList := by
  unfold varsOf; split <;> rfl

theorem vars_file (p : Project) : (varsOf p).lookup "INSTALL_FILE".toList = some "install -m 644 -p".toList := by
  unfold varsOf; split <;> rfl

theorem plain_not {d : Str} (h : PlainDir d) (c : Char) (hc : ¬ plainChar c) : c ∉ d := fun hm => hc (h.2 c hm)

theorem dirs_quote (p : Project) (hp : Plain p) (v : Var) : '\'' ∉ dirs p v := by
  cases v
  · exact plain_not hp.srcDir _ (by decide)
  · exact plain_not hp.buildDir _ (by decide)
  · rcases hp.installRoot with h | h
    · show '\'' ∉ p.installRoot; rw [h]; simp
    · exact plain_not h _ (by decide)

theorem known (p : Project) (l : List Tok) (h : ∀ u, Tok.var u ∈ l → u = .install → p.installRoot ≠ []) :
    Known (varsOf p) (dirs p) l := by
  intro v hv
  cases v
  · exact vars_src p
  · exact vars_build p
  · exact vars_install p (h _ hv rfl)

/-! ### The beginning -/

theorem def_line (m : Read) (name d : Str) (hn : ∀ c ∈ name, upper c = true) (hne : name ≠ []) (h0 : ∃ c s, name = c :: s ∧ c ≠ '#' ∧ c ≠ '\t')
    (hd : PlainDir d) :
    readLine m (name ++ ' ' :: '=' :: ' ' :: d) = some { m with vars := (name, d) :: m.vars } := by
  have he : definition (name ++ ' ' :: '=' :: ' ' :: d) = some (name, d) := by
    refine definition_some name d hn hne ?_ ?_ ?_
    · intro h; have := hd.1; rw [h] at this; exact absurd this (by simp)
    · rw [hd.1]; decide
    · intro c hc
      have := hd.2 c hc
      simp only [List.mem_cons, List.not_mem_nil, or_false]
      rintro (rfl | rfl | rfl | rfl | rfl) <;> exact absurd this (by decide)
  obtain ⟨c, s, rfl, h1, h2⟩ := h0
  unfold readLine
  split
  · rename_i h; exact absurd h (by simp)
  · rename_i h; rw [List.cons_append] at h; injection h with h; exact absurd h h1
  · rename_i h; rw [List.cons_append] at h; injection h with h; exact absurd h h2
  · simp only [he]

theorem header_read (p : Project) (hp : Plain p) :
    readLines {} (header p) = some ⟨varsOf p, [⟨"all".toList, [], []⟩]⟩ := by
  have h1 : readLines {} (["# This file was generated by qbs".toList, [],
      "INSTALL_FILE = install -m 644 -p".toList, "INSTALL_PROGRAM = install -m 755 -p".toList,
      "RM = rm -f".toList, []]) =
      some ⟨[("RM".toList, "rm -f".toList),
        ("INSTALL_PROGRAM".toList, "install -m 755 -p".toList), ("INSTALL_FILE".toList, "install -m 644 -p".toList)], []⟩ := by
    decide +kernel
  have h2 := fun m => def_line m Var.src.name p.srcDir (by decide) (by decide) ⟨_, _, rfl, by decide, by decide⟩ hp.srcDir
  have h3 := fun m => def_line m Var.build.name p.buildDir (by decide) (by decide) ⟨_, _, rfl, by decide, by decide⟩ hp.buildDir
  have h4 : ∀ vars, readLines ⟨vars, []⟩ [[], "all:".toList] = some ⟨vars, [⟨"all".toList, [], []⟩]⟩ := by
    intro vars
    have : Rules vars ["all:".toList] [⟨"all".toList, [], []⟩] := by
      refine block ⟨_, _, rfl, by decide, by decide⟩ (by decide) ?_ (recs_nil _)
      exact rule_line vars _ "all".toList [] ⟨by decide, by decide, by decide⟩ (by simp) rfl
    rw [readLines]
    exact this []
  have h5 : header p = ["# This file was generated by qbs".toList, [],
      "INSTALL_FILE = install -m 644 -p".toList, "INSTALL_PROGRAM = install -m 755 -p".toList,
      "RM = rm -f".toList, []] ++ ([Var.src.name ++ ' ' :: '=' :: ' ' :: p.srcDir,
      Var.build.name ++ ' ' :: '=' :: ' ' :: p.buildDir] ++
      ((if p.installRoot = [] then [] else [Var.install.name ++ ' ' :: '=' :: ' ' :: p.installRoot]) ++ [[], "all:".toList])) := by
    unfold header; rfl
  rw [h5, readLines_append, h1, Option.bind_some, readLines_append, readLines, h2, Option.bind_some, readLines, h3,
    Option.bind_some, readLines, Option.bind_some, readLines_append]
  by_cases hi : p.installRoot = []
  · rw [if_pos hi, readLines, Option.bind_some, h4]
    simp only [varsOf, if_pos hi]
    rfl
  · have h6 := fun m => def_line m Var.install.name p.installRoot (by decide) (by decide) ⟨_, _, rfl, by decide, by decide⟩
      (hp.installRoot.resolve_left hi)
    rw [if_neg hi, readLines, h6, Option.bind_some, readLines, Option.bind_some, h4]
    simp only [varsOf, if_neg hi]
    rfl

/-! ### Paths -/

theorem plain_space {d : Str} (h : PlainDir d) : ' ' ∉ d := plain_not h _ (by decide)

theorem expand_output (p : Project) (hp : Plain p) (a : Artifact) (h : PlainName a.path) (rest : Str) :
    expandAt (varsOf p) .text (outputPath p a ++ rest) =
      (expandAt (varsOf p) .text rest).map (pathTarget a.path ++ ·) :=
  expand_target _ .build _ _ _ (vars_build p) (plain_space hp.buildDir) h

theorem expand_input (p : Project) (hp : Plain p) (a : Artifact) (h : PlainName a.path) (rest : Str) :
    expandAt (varsOf p) .text (artifactPath p a ++ rest) =
      (expandAt (varsOf p) .text rest).map (pathTarget a.path ++ ·) := by
  unfold artifactPath
  split
  · exact expand_output p hp a h rest
  · exact expand_target _ .src _ _ _ (vars_src p) (plain_space hp.srcDir) h

/-- A line for an output begins with a slash or a dollar sign, if the path is absolute. -/
theorem output_head (p : Project) (a : Artifact) (h : PlainFile a.path) (rest : Str) :
    ∃ c s, outputPath p a ++ rest = c :: s ∧ (c = '/' ∨ c = '$') := by
  obtain ⟨d, n, he, -, ⟨hd, -⟩, -⟩ := h
  obtain ⟨t, rfl⟩ : ∃ t, d = '/' :: t := by
    cases d with
    | nil => exact absurd hd (by simp)
    | cons c t => exact ⟨t, by rw [Option.some.inj hd]⟩
  unfold outputPath inBuild
  rcases prefix_cases a.path p.buildDir .build with e | ⟨t', e1, e2⟩
  · have e : replacePrefix a.path p.buildDir "BUILD_ROOT".toList = a.path := e
    rw [e, he, List.cons_append, pathTarget_cons, if_neg (by decide)]
    exact ⟨_, _, rfl, .inl rfl⟩
  · have e2 : replacePrefix a.path p.buildDir "BUILD_ROOT".toList = Var.build.ref ++ t' := e2
    rw [e2, pathTarget_append, pathTarget_spaceless _ (space_ref _)]
    exact ⟨_, _, rfl, .inr rfl⟩

theorem output_rule (p : Project) (hp : Plain p) (a : Artifact) (ha : PlainName a.path ∧ PlainFile a.path)
    (needs : List Artifact) (f : Artifact → Str)
    (hf : ∀ b ∈ needs, ∀ rest, expandAt (varsOf p) .text (f b ++ rest) =
      (expandAt (varsOf p) .text rest).map (pathTarget b.path ++ ·))
    (hn : ∀ b ∈ needs, PlainName b.path) (recs : List Str) (cs : List (List Str)) (hc : Recs (varsOf p) recs cs) :
    Rules (varsOf p) ((outputPath p a ++ ':' :: spaced (needs.map f)) :: recs) [⟨a.path, needs.map (·.path), cs⟩] := by
  obtain ⟨c, s, e, hcs⟩ := output_head p a ha.2 (':' :: spaced (needs.map f))
  refine block ⟨c, s, e, ?_, ?_⟩ ?_ ?_ hc
  · rcases hcs with rfl | rfl <;> decide
  · rcases hcs with rfl | rfl <;> decide
  · rw [e]
    rcases hcs with rfl | rfl <;> exact definition_head _ _ (by decide) (by decide)
  · refine rule_line _ _ _ _ ha.1 ?_ ?_
    · intro s hs
      obtain ⟨b, hb, rfl⟩ := List.mem_map.mp hs
      exact hn b hb
    · rw [expand_output p hp a ha.1, expand_char _ _ _ (by decide) (by decide),
        expand_spaced (varsOf p) f (fun b => pathTarget b.path) needs hf, List.map_map]
      rfl

/-! ### Commands -/

theorem posix_chars (a rest w : Str) (h : ∀ c ∈ a, plainChar c) :
    posix (some w) (a ++ rest) = posix (some (w ++ a)) rest := by
  induction a generalizing w with
  | nil => simp
  | cons c a ih =>
    have hc := h c (by simp)
    have ih := ih (w ++ [c]) (fun c hc => h c (by simp [hc]))
    rw [List.cons_append, posix.eq_4]
    · rw [if_neg, if_neg hc.2.2.2.1]
      · show posix (some (w ++ [c])) (a ++ rest) = _
        simpa using ih
      · rintro (rfl | rfl) <;> exact absurd hc (by decide)
    · rintro rfl; exact absurd hc (by decide)
    · rintro rfl; exact absurd hc (by decide)

theorem posix_word (a rest : Str) (h : ∀ c ∈ a, plainChar c) (hne : a ≠ []) :
    posix none (a ++ rest) = posix (some a) rest := by
  cases a with
  | nil => exact absurd rfl hne
  | cons c a =>
    have hc := h c (by simp)
    have e := posix_chars a rest [c] (fun c hc => h c (by simp [hc]))
    rw [List.cons_append, posix.eq_4]
    · rw [if_neg, if_neg hc.2.2.2.1]
      · exact e
      · rintro (rfl | rfl) <;> exact absurd hc (by decide)
    · rintro rfl; exact absurd hc (by decide)
    · rintro rfl; exact absurd hc (by decide)

theorem plain_ne {d : Str} (h : PlainDir d) : d ≠ [] := by
  rintro rfl; exact absurd h.1 (by simp)

theorem posix_last (w : Str) : posix (some w) [] = some [w] := by rw [posix]; rfl

/-- A fixed word and a space. -/
theorem posix_fixed (a rest : Str) (h : ∀ c ∈ a, plainChar c) (hne : a ≠ []) :
    posix none (a ++ ' ' :: rest) = (posix none rest).map (a :: ·) := by
  rw [posix_word a _ h hne, Verif.Shell.posix_blank]

theorem mkdir_recs (vars : List (Str × Str)) (d d' : Str) (hd : PlainDir d)
    (he : expandAt vars .text d' = some d) : Recs vars [mkdirLine d'] [mkdir d] := by
  have e : mkdirLine d' = '\t' :: ("mkdir".toList ++ ' ' :: ("-p".toList ++ ' ' :: d')) := rfl
  rw [e]
  refine recs_one ?_
  unfold recipeLine
  rw [if_neg (by simp), expand, expand_plain _ _ _ (by decide) (by decide), expand_char _ _ _ (by decide) (by decide),
    expand_plain _ _ _ (by decide) (by decide), expand_char _ _ _ (by decide) (by decide), he]
  simp only [Option.map_some, Option.bind_some, posixWords]
  rw [posix_fixed _ _ (by decide) (by decide), posix_fixed _ _ (by decide) (by decide)]
  have := posix_word d [] hd.2 (plain_ne hd)
  rw [List.append_nil] at this
  rw [this, posix_last]
  rfl

theorem dir_newline {d : Str} (h : PlainDir d) : '\n' ∉ d := plain_not h _ (by decide)

theorem expand_inBuild (p : Project) (d rest : Str) (h : PlainDir d) :
    expandAt (varsOf p) .text (inBuild p d ++ rest) = (expandAt (varsOf p) .text rest).map (d ++ ·) :=
  expand_prefix _ .build _ _ _ (vars_build p) (plain_dollar h) (dir_newline h)

theorem expand_inSource (p : Project) (d rest : Str) (h : PlainDir d) :
    expandAt (varsOf p) .text (inSource p d ++ rest) = (expandAt (varsOf p) .text rest).map (d ++ ·) :=
  expand_prefix _ .src _ _ _ (vars_src p) (plain_dollar h) (dir_newline h)

theorem expand_inInstall (p : Project) (d rest : Str) (h : PlainDir d) :
    expandAt (varsOf p) .text (inInstall p d ++ rest) = (expandAt (varsOf p) .text rest).map (d ++ ·) := by
  unfold inInstall
  split
  · exact expand_plain _ _ _ (plain_dollar h) (dir_newline h)
  · rename_i hi
    exact expand_prefix _ .install _ _ _ (vars_install p hi) (plain_dollar h) (dir_newline h)

theorem expand_only {vars : List (Str × Str)} {s x : Str}
    (h : ∀ rest, expandAt vars .text (s ++ rest) = (expandAt vars .text rest).map (x ++ ·)) :
    expandAt vars .text s = some x := by
  have := h []
  rw [List.append_nil] at this
  rw [this]
  simp [expandAt]

/-- A text in a command. -/
theorem word (p : Project) (hp : Plain p) (s : Str) (hs : PlainText s) :
    ∃ x, (∀ rest, expandAt (varsOf p) .text (quote (bruteForce p s) ++ rest) =
        (expandAt (varsOf p) .text rest).map (x ++ ·)) ∧
      (∀ w rest, posix w (x ++ rest) = posix (some (w.getD [] ++ s)) rest) ∧
      ((quote (bruteForce p s)).head? = some '\'' ∨ (quote (bruteForce p s) = s ∧ s ≠ [])) := by
  obtain ⟨m, h1, h2, h3, h4, h5⟩ := brute p hp s hs
  have := quote_word (varsOf p) (dirs p) (dirs_quote p hp) m h2 (known p m h4) h5
  rwa [h1, h3] at this

theorem args_words (p : Project) (hp : Plain p) (args : List Str) (h : ∀ a ∈ args, PlainText a) :
    ∃ x, expandAt (varsOf p) .text (spaced (args.map fun a => quote (bruteForce p a))) = some x ∧
      ∀ w, posix (some w) x = some (w :: args) := by
  induction args with
  | nil => exact ⟨[], rfl, fun w => posix_last w⟩
  | cons a args ih =>
    obtain ⟨y, y1, y2⟩ := ih fun a ha => h a (by simp [ha])
    obtain ⟨x, x1, x2, -⟩ := word p hp a (h a (by simp))
    refine ⟨' ' :: (x ++ y), ?_, fun w => ?_⟩
    · rw [List.map_cons, spaced_cons, expand_char _ _ _ (by decide) (by decide), x1, y1]; rfl
    · rw [Verif.Shell.posix_blank, x2, Option.getD_none, List.nil_append, y2]; rfl

theorem command_recs (p : Project) (hp : Plain p) (c : Command) (hc : PlainCommand c) :
    Recs (varsOf p) (commandLine? p c).toList (argv? c).toList := by
  cases c with
  | js => exact recs_nil _
  | process exe args wd env =>
    obtain ⟨h1, h2, h3, h4, h5⟩ := hc
    obtain ⟨x, x1, x2, x3⟩ := word p hp exe h4
    obtain ⟨y, y1, y2⟩ := args_words p hp args h5
    refine recs_one (s := quote (bruteForce p exe) ++ spaced (args.map fun a => quote (bruteForce p a))) ?_
    have hh : ∀ r : Str, (quote (bruteForce p exe) ++ r).head? ≠ some '@' ∧ (quote (bruteForce p exe) ++ r).head? ≠ some '-' ∧
        (quote (bruteForce p exe) ++ r).head? ≠ some '+' := by
      intro r
      rcases x3 with h | ⟨h, hne⟩
      · have : (quote (bruteForce p exe) ++ r).head? = some '\'' := by
          cases hq : quote (bruteForce p exe) with
          | nil => rw [hq] at h; exact absurd h (by simp)
          | cons c s => rw [hq] at h; exact h
        rw [this]; decide
      · rw [h]
        cases exe with
        | nil => exact absurd rfl hne
        | cons c s => exact ⟨h1, h2, h3⟩
    unfold recipeLine
    rw [if_neg, expand, x1, y1]
    · simp only [Option.map_some, Option.bind_some, posixWords]
      rw [x2, Option.getD_none, List.nil_append, y2]
    · obtain ⟨a, b, c⟩ := hh (spaced (args.map fun a => quote (bruteForce p a)))
      rintro (h | h | h)
      · exact a h
      · exact b h
      · exact c h

theorem commands_recs (p : Project) (hp : Plain p) (l : List Command) (hl : ∀ c ∈ l, PlainCommand c) :
    Recs (varsOf p) (l.filterMap (commandLine? p)) (l.filterMap argv?) := by
  induction l with
  | nil => exact recs_nil _
  | cons c l ih =>
    have h1 := recs_append (command_recs p hp c (hl c (by simp))) (ih fun c hc => hl c (by simp [hc]))
    have e : ∀ {β : Type} (f : Command → Option β), (c :: l).filterMap f = (f c).toList ++ l.filterMap f := by
      intro β f
      rw [List.filterMap_cons]
      cases f c <;> rfl
    rw [e, e]
    exact h1

/-! ### Files -/

theorem dirOf_eq (d n : Str) (hn : '/' ∉ n) : dirOf (d ++ '/' :: n) = d := by
  unfold dirOf
  rw [List.reverse_append, List.reverse_cons, List.append_assoc, List.dropWhile_append_of_pos]
  · simp
  · intro c hc
    have : c ≠ '/' := by rintro rfl; exact hn (List.mem_reverse.mp hc)
    simpa using this

theorem nameOf_eq (d n : Str) (hn : '/' ∉ n) : nameOf (d ++ '/' :: n) = n := by
  unfold nameOf
  rw [List.reverse_append, List.reverse_cons, List.append_assoc, List.takeWhile_append_of_pos]
  · simp
  · intro c hc
    have : c ≠ '/' := by rintro rfl; exact hn (List.mem_reverse.mp hc)
    simpa using this

theorem name_word (p : Project) (hp : Plain p) (s : Str) (hs : PlainText s) :
    ∃ x, (∀ rest, expandAt (varsOf p) .text (quote s ++ rest) = (expandAt (varsOf p) .text rest).map (x ++ ·)) ∧
      (∀ w rest, posix w (x ++ rest) = posix (some (w.getD [] ++ s)) rest) := by
  have := quote_word (varsOf p) (dirs p) (dirs_quote p hp) (s.map .ch) (canon_chars s (text_refs hs)) (by intro v hv; simp at hv)
    (by simpa using hs.1)
  rw [render_chars, value_chars] at this
  obtain ⟨x, x1, x2, -⟩ := this
  exact ⟨x, x1, x2⟩

/-- A file after a directory that is not quoted. -/
theorem file_word (p : Project) (hp : Plain p) (s : Str) (hs : PlainFile s) (f : Str → Str)
    (hf : ∀ d rest, PlainDir d → expandAt (varsOf p) .text (f d ++ rest) = (expandAt (varsOf p) .text rest).map (d ++ ·)) :
    ∃ x, (∀ rest, expandAt (varsOf p) .text (f (dirOf s) ++ '/' :: (quote (nameOf s) ++ rest)) =
        (expandAt (varsOf p) .text rest).map (x ++ ·)) ∧
      ∀ rest, posix none (x ++ rest) = posix (some s) rest := by
  obtain ⟨d, n, rfl, hn, hd, ht, -⟩ := hs
  rw [dirOf_eq d n hn, nameOf_eq d n hn]
  obtain ⟨x, x1, x2⟩ := name_word p hp n ht
  refine ⟨d ++ '/' :: x, fun rest => ?_, fun rest => ?_⟩
  · rw [hf d _ hd, expand_char _ _ _ (by decide) (by decide), x1]
    simp [Option.map_map, Function.comp_def]
  · have e : (d ++ '/' :: x) ++ rest = d ++ (['/'] ++ (x ++ rest)) := by simp
    rw [e, posix_word d _ hd.2 (plain_ne hd), posix_chars _ _ _ (by decide), x2]
    simp

theorem expand_named (vars : List (Str × Str)) (n v s : Str) (hn : ')' ∉ n) (h : vars.lookup n = some v) :
    expandAt vars .text ('$' :: '(' :: (n ++ ')' :: s)) = (expandAt vars .text s).map (v ++ ·) := by
  rw [expandAt, if_pos rfl, expandAt, if_neg (by decide), if_pos rfl, expand_name _ _ _ _ hn, List.nil_append, h]

theorem clean_recs (p : Project) (hp : Plain p) (a : Artifact) (ha : PlainFile a.path) :
    Recs (varsOf p) [cleanLine p a] [["rm".toList, "-f".toList, a.path]] := by
  obtain ⟨x, x1, x2⟩ := file_word p hp a.path ha (inBuild p) (fun d rest => expand_inBuild p d rest)
  have x1 := x1 []
  rw [List.append_nil] at x1
  have e : cleanLine p a = '\t' :: ('$' :: '(' :: ("RM".toList ++ ')' :: ' ' :: (inBuild p (dirOf a.path) ++ '/' :: quote (nameOf a.path)))) := by
    unfold cleanLine; rw [List.append_assoc]; rfl
  rw [e]
  refine recs_one ?_
  unfold recipeLine
  rw [if_neg (by simp), expand, expand_named _ _ _ _ (by decide) (vars_rm p), expand_char _ _ _ (by decide) (by decide), x1,
    show expandAt (varsOf p) .text [] = some [] by simp [expandAt]]
  simp only [Option.map_some, Option.bind_some, posixWords, List.append_nil]
  have e2 : "rm -f".toList ++ ' ' :: x = "rm".toList ++ ' ' :: ("-f".toList ++ ' ' :: x) := rfl
  rw [e2, posix_fixed _ _ (by decide) (by decide), posix_fixed _ _ (by decide) (by decide)]
  have := x2 []
  rw [List.append_nil] at this
  rw [this, posix_last]
  rfl

theorem install_recs (p : Project) (hp : Plain p) (a : Artifact) (ha : PlainFile a.path) (hd : PlainDir a.installDir) :
    Recs (varsOf p) [installLine p a] [installCommand a] := by
  obtain ⟨x, x1, x2⟩ := file_word p hp a.path ha (fun d => if a.generated then inBuild p d else inSource p d) (by
    intro d rest h
    cases a.generated
    · exact expand_inSource p d rest h
    · exact expand_inBuild p d rest h)
  have hi := expand_only (fun rest => expand_inInstall p a.installDir rest hd)
  have x1 := x1 (' ' :: inInstall p a.installDir)
  rw [expand_char _ _ _ (by decide) (by decide), hi] at x1
  have x2 := x2 (' ' :: a.installDir)
  rw [Verif.Shell.posix_blank] at x2
  have hw := posix_word a.installDir [] hd.2 (plain_ne hd)
  rw [List.append_nil] at hw
  rw [hw, posix_last] at x2
  obtain ⟨n, v, m, hn, hv, hl, e, hm, hc⟩ : ∃ n v m : Str, ')' ∉ n ∧ v = "install".toList ++ ' ' :: ("-m".toList ++ ' ' :: (m ++ ' ' :: "-p".toList)) ∧
      (varsOf p).lookup n = some v ∧
      installLine p a = '\t' :: ('$' :: '(' :: (n ++ ')' :: ' ' :: ((if a.generated then inBuild p (dirOf a.path) else inSource p (dirOf a.path)) ++
        '/' :: (quote (nameOf a.path) ++ ' ' :: inInstall p a.installDir)))) ∧ ((∀ c ∈ m, plainChar c) ∧ m ≠ []) ∧
      installCommand a = ["install".toList, "-m".toList, m, "-p".toList, a.path, a.installDir] := by
    unfold installLine installCommand
    cases a.executable
    · exact ⟨"INSTALL_FILE".toList, _, "644".toList, by decide, rfl, vars_file p, by simp, by decide, rfl⟩
    · exact ⟨"INSTALL_PROGRAM".toList, _, "755".toList, by decide, rfl, vars_program p, by simp, by decide, rfl⟩
  rw [e, hc]
  refine recs_one ?_
  unfold recipeLine
  rw [if_neg (by simp), expand, expand_named _ _ _ _ hn hl, expand_char _ _ _ (by decide) (by decide), x1]
  simp only [Option.map_some, Option.bind_some, posixWords]
  have e2 : v ++ ' ' :: (x ++ ' ' :: a.installDir) = "install".toList ++ ' ' :: ("-m".toList ++ ' ' :: (m ++ ' ' :: ("-p".toList ++ ' ' :: (x ++ ' ' :: a.installDir)))) := by
    rw [hv]; simp
  rw [e2, posix_fixed _ _ (by decide) (by decide), posix_fixed _ _ (by decide) (by decide), posix_fixed _ _ hm.1 hm.2,
    posix_fixed _ _ (by decide) (by decide), x2]
  rfl

theorem installs_recs (p : Project) (hp : Plain p) (l : List Artifact) (seen : List Str)
    (hl : ∀ a ∈ l, PlainFile a.path ∧ (' ' ∈ a.installDir ∨ PlainDir a.installDir)) :
    Recs (varsOf p) (installLines p seen l) (wantInstall seen l) := by
  induction l generalizing seen with
  | nil => exact recs_nil _
  | cons a l ih =>
    have ih := fun seen => ih seen fun a ha => hl a (by simp [ha])
    obtain ⟨h1, h2⟩ := hl a (by simp)
    unfold installLines wantInstall
    by_cases hs : ' ' ∈ a.installDir
    · rw [if_pos hs, if_pos hs]; exact ih seen
    · have hd := h2.resolve_left hs
      rw [if_neg hs, if_neg hs]
      by_cases hm : a.installDir ∈ seen
      · rw [if_pos hm, if_pos hm]
        exact recs_append (install_recs p hp a h1 hd) (ih seen)
      · rw [if_neg hm, if_neg hm]
        refine recs_append (a := [mkdirLine (inInstall p a.installDir), installLine p a]) (c := [mkdir a.installDir, installCommand a]) ?_ (ih _)
        exact recs_append (mkdir_recs _ _ _ hd (expand_only fun rest => expand_inInstall p _ rest hd)) (install_recs p hp a h1 hd)

/-! ### Transformers -/

theorem onceEach_eq (seen l : List Str) : onceEach seen l = (l.filter (fun d => decide (d ∉ seen))).eraseDups := by
  induction l generalizing seen with
  | nil => rfl
  | cons d l ih =>
    unfold onceEach
    by_cases h : d ∈ seen
    · rw [if_pos h, List.filter_cons_of_neg (by simpa using h), ih]
    · rw [if_neg h, List.filter_cons_of_pos (by simpa using h), List.eraseDups_cons, ih, List.filter_filter]
      congr 2
      apply List.filter_congr
      intro e _
      simp only [List.mem_cons, not_or]
      by_cases he : e = d <;> simp [he]

theorem mem_onceEach (seen l : List Str) (d : Str) (h : d ∈ onceEach seen l) : d ∈ l := by
  induction l generalizing seen with
  | nil => exact h
  | cons e l ih =>
    unfold onceEach at h
    split at h
    · exact List.mem_cons_of_mem _ (ih _ h)
    · rcases List.mem_cons.mp h with h | h
      · rw [h]; simp
      · exact List.mem_cons_of_mem _ (ih _ h)

theorem file_dir {s : Str} (h : PlainFile s) : PlainDir (dirOf s) := by
  obtain ⟨d, n, rfl, hn, hd, -⟩ := h
  rw [dirOf_eq d n hn]; exact hd

theorem chain_rules (p : Project) (hp : Plain p) (a : Artifact) (l : List Artifact)
    (h : ∀ b ∈ a :: l, PlainName b.path ∧ PlainFile b.path) : Rules (varsOf p) (chain p a l) (wantChain a l) := by
  induction l generalizing a with
  | nil => exact rules_nil _
  | cons b l ih =>
    have h1 := output_rule p hp b (h b (by simp)) [a] (outputPath p)
      (fun c hc rest => expand_output p hp c (by rw [List.mem_singleton.mp hc]; exact (h a (by simp)).1) rest)
      (fun c hc => by rw [List.mem_singleton.mp hc]; exact (h a (by simp)).1) [] [] (recs_nil _)
    have e : outputPath p b ++ ":".toList ++ ' ' :: outputPath p a = outputPath p b ++ ':' :: spaced ([a].map (outputPath p)) := by
      simp [spaced]
    have h2 := rules_append h1 (ih b fun c hc => h c (by simp at hc ⊢; exact .inr hc))
    unfold chain wantChain
    have e' : outputPath p b ++ ": ".toList ++ outputPath p a = outputPath p b ++ ':' :: spaced ([a].map (outputPath p)) := by
      simp [spaced]
    rw [e']
    exact h2

theorem transformer_rules (p : Project) (hp : Plain p) (t : Transformer) (ht : PlainTransformer t) :
    Rules (varsOf p) (transformerLines p t) (wantTransformer t) := by
  have hm : Recs (varsOf p)
      ((onceEach [] ((t.output :: t.more).map fun a => dirOf a.path)).map fun d => mkdirLine (inBuild p d))
      (((t.output :: t.more).map fun a => dirOf a.path).eraseDups.map mkdir) := by
    have e : ((t.output :: t.more).map fun a => dirOf a.path).eraseDups = onceEach [] ((t.output :: t.more).map fun a => dirOf a.path) := by
      rw [onceEach_eq, List.filter_eq_self.mpr (by simp)]
    rw [e]
    refine recs_map _ _ _ fun d hd => ?_
    obtain ⟨a, ha, rfl⟩ := List.mem_map.mp (mem_onceEach _ _ _ hd)
    have hpd := file_dir (ht.outputs a ha).2
    exact mkdir_recs _ _ _ hpd (expand_only fun rest => expand_inBuild p _ rest hpd)
  have hr := recs_append hm (commands_recs p hp t.commands ht.commands)
  have h1 := output_rule p hp t.output (ht.outputs _ (by simp)) t.inputs (artifactPath p)
    (fun b hb rest => expand_input p hp b (ht.inputs b hb) rest) ht.inputs _ _ hr
  have h2 := rules_append h1 (chain_rules p hp t.output t.more ht.outputs)
  have e : transformerLines p t = (outputPath p t.output ++ ':' :: spaced (t.inputs.map (artifactPath p))) ::
      (((onceEach [] ((t.output :: t.more).map fun a => dirOf a.path)).map fun d => mkdirLine (inBuild p d)) ++
        t.commands.filterMap (commandLine? p)) ++ chain p t.output t.more := by
    simp [transformerLines]
  rw [e]
  exact h2

/-! ### Products -/

theorem legal_plain (c : Char) (h : legalChar c = true) : c ≠ ' ' ∧ c ≠ '$' ∧ c ≠ '#' ∧ c ≠ '\t' ∧ c ∉ nameSpecial := by
  have h1 : ∀ d ∈ ' ' :: '$' :: '#' :: '\t' :: nameSpecial, c ≠ d := by
    intro d hd hh
    subst hh
    have : (' ' :: '$' :: '#' :: '\t' :: nameSpecial).all (fun c => !legalChar c) = true := by decide
    have := List.all_eq_true.mp this c hd
    rw [h] at this; exact absurd this (by decide)
  exact ⟨h1 _ (by simp), h1 _ (by simp), h1 _ (by simp), h1 _ (by simp), fun hm => h1 c (by simp [hm]) rfl⟩

theorem target_legal (d : Product) (hd : PlainProduct d) : ∀ c ∈ productTarget d, legalChar c = true := by
  have h1 : ∀ c ∈ d.name.map (fun c => if legalChar c then c else '_'), legalChar c = true := by
    intro c hc
    obtain ⟨e, -, rfl⟩ := List.mem_map.mp hc
    split
    · assumption
    · decide
  intro c hc
  unfold productTarget at hc
  split at hc
  · exact h1 c hc
  · rcases List.mem_append.mp hc with hc | hc
    · exact h1 c hc
    · rcases List.mem_cons.mp hc with rfl | hc
      · decide
      · exact hd.multiplexId c hc

theorem target_ne (d : Product) (hd : PlainProduct d) : productTarget d ≠ [] := by
  unfold productTarget
  have := hd.name
  split
  · simpa using this
  · simp

/-- Letters, digits, dots, underscores and dashes. -/
def Simple (s : Str) : Prop := s ≠ [] ∧ ∀ c ∈ s, legalChar c = true ∨ c = '-'

theorem simple_char {s : Str} (h : Simple s) (c : Char) (hc : c ∈ s) : c ≠ ' ' ∧ c ≠ '$' ∧ c ≠ '#' ∧ c ≠ '\t' ∧ c ∉ nameSpecial := by
  rcases h.2 c hc with h | rfl
  · exact legal_plain c h
  · decide

theorem simple_name {s : Str} (h : Simple s) : PlainName s :=
  ⟨h.1, fun hc => (simple_char h _ hc).2.1 rfl, fun c hc => (simple_char h c hc).2.2.2.2⟩

theorem simple_space {s : Str} (h : Simple s) : ' ' ∉ s := fun hc => (simple_char h _ hc).1 rfl

theorem simple_expand {s : Str} (h : Simple s) (vars : List (Str × Str)) (rest : Str) :
    expandAt vars .text (s ++ rest) = (expandAt vars .text rest).map (pathTarget s ++ ·) := by
  rw [pathTarget_spaceless _ (simple_space h)]
  exact expand_plain _ _ _ (simple_name h).2.1 fun hc => (simple_name h).2.2 _ hc (by decide)

theorem target_simple (d : Product) (hd : PlainProduct d) : Simple (productTarget d) :=
  ⟨target_ne d hd, fun c hc => .inl (target_legal d hd c hc)⟩

theorem prefixed_simple (w : Str) (hw : w.all (fun c => legalChar c || c = '-') = true) (d : Product) (hd : PlainProduct d) :
    Simple (w ++ productTarget d) := by
  refine ⟨by simp [target_ne d hd], fun c hc => ?_⟩
  rcases List.mem_append.mp hc with hc | hc
  · simpa using List.all_eq_true.mp hw c hc
  · exact .inl (target_legal d hd c hc)

theorem simple_rule {α : Type} (vars : List (Str × Str)) (t : Str) (ht : Simple t) (needs : List α) (f g : α → Str)
    (hf : ∀ b ∈ needs, ∀ rest, expandAt vars .text (f b ++ rest) = (expandAt vars .text rest).map (pathTarget (g b) ++ ·))
    (hn : ∀ b ∈ needs, PlainName (g b)) (recs : List Str) (cs : List (List Str)) (hc : Recs vars recs cs) :
    Rules vars ((t ++ ':' :: spaced (needs.map f)) :: recs) [⟨t, needs.map g, cs⟩] := by
  refine block ?_ (definition_colon _ _ (simple_space ht)) ?_ hc
  · cases ht0 : t with
    | nil => exact absurd ht0 ht.1
    | cons c s =>
      have := simple_char ht c (by rw [ht0]; simp)
      exact ⟨c, _, rfl, this.2.2.1, this.2.2.2.1⟩
  · refine rule_line _ _ _ _ (simple_name ht) ?_ ?_
    · intro s hs
      obtain ⟨b, hb, rfl⟩ := List.mem_map.mp hs
      exact hn b hb
    · rw [simple_expand ht, expand_char _ _ _ (by decide) (by decide), expand_spaced vars f (fun b => pathTarget (g b)) needs hf, List.map_map]
      rfl

theorem product_rules (p : Project) (hp : Plain p) (d : Product) (hd : PlainProduct d) :
    Rules (varsOf p) (productLines p d) (wantProduct d) := by
  have h1 := simple_rule (varsOf p) _ (target_simple d hd) d.targets (outputPath p) (·.path)
    (fun b hb rest => expand_output p hp b (hd.targets b hb) rest) hd.targets [] [] (recs_nil _)
  have h2 := rules_flatMap (transformerLines p) wantTransformer d.transformers
    (fun t ht => transformer_rules p hp t (hd.transformers t ht))
  have h3 := simple_rule (varsOf p) _ (prefixed_simple "install-".toList (by decide) d hd) [d] productTarget productTarget
    (fun b hb rest => by rw [List.mem_singleton.mp hb]; exact simple_expand (target_simple d hd) _ rest)
    (fun b hb => by rw [List.mem_singleton.mp hb]; exact simple_name (target_simple d hd)) _ _
    (installs_recs p hp d.installables [] hd.installables)
  have h4 := simple_rule (varsOf p) _ (prefixed_simple "clean-".toList (by decide) d hd) ([] : List Str) id id
    (by simp) (by simp) _ _ (recs_map (cleanLine p) (fun a => ["rm".toList, "-f".toList, a.path]) d.generated
      (fun a ha => clean_recs p hp a (hd.generated a ha)))
  have h := rules_append h1 (rules_append h2 (rules_append h3 h4))
  have e : productLines p d = [productTarget d ++ ':' :: spaced (d.targets.map (outputPath p))] ++
      (d.transformers.flatMap (transformerLines p) ++
      (("install-".toList ++ productTarget d ++ ':' :: spaced ([d].map productTarget)) :: installLines p [] d.installables ++
      ("clean-".toList ++ productTarget d ++ ':' :: spaced (([] : List Str).map id)) :: d.generated.map (cleanLine p))) := by
    simp [productLines, spaced]
  rw [e]
  have e' : wantProduct d = [⟨productTarget d, d.targets.map (·.path), []⟩] ++ (d.transformers.flatMap wantTransformer ++
      ([⟨"install-".toList ++ productTarget d, [d].map productTarget, wantInstall [] d.installables⟩] ++
       [⟨"clean-".toList ++ productTarget d, ([] : List Str).map id, d.generated.map fun a => ["rm".toList, "-f".toList, a.path]⟩])) := by
    simp [wantProduct]
  rw [e']
  exact h

theorem fixed_simple (w : Str) (hw : w.all (fun c => legalChar c || c = '-') = true) (hne : w ≠ []) : Simple w :=
  ⟨hne, fun c hc => by simpa using List.all_eq_true.mp hw c hc⟩

theorem footer_rules (p : Project) (hp : Plain p) :
    Rules (varsOf p) (footer p)
      [⟨"all".toList, (p.products.filter (·.builtByDefault)).map productTarget, []⟩,
       ⟨"install".toList, (p.products.filter (·.builtByDefault)).map fun d => "install-".toList ++ productTarget d, []⟩,
       ⟨"clean".toList, p.products.map fun d => "clean-".toList ++ productTarget d, []⟩] := by
  have hf : ∀ d ∈ p.products.filter (·.builtByDefault), PlainProduct d := fun d hd =>
    hp.products d (List.mem_filter.mp hd).1
  have h1 := simple_rule (varsOf p) "all".toList (fixed_simple _ (by decide) (by decide)) (p.products.filter (·.builtByDefault))
    productTarget productTarget (fun d hd rest => simple_expand (target_simple d (hf d hd)) _ rest)
    (fun d hd => simple_name (target_simple d (hf d hd))) [] [] (recs_nil _)
  have h2 := simple_rule (varsOf p) "install".toList (fixed_simple _ (by decide) (by decide)) (p.products.filter (·.builtByDefault))
    (fun d => "install-".toList ++ productTarget d) (fun d => "install-".toList ++ productTarget d)
    (fun d hd rest => simple_expand (prefixed_simple _ (by decide) d (hf d hd)) _ rest)
    (fun d hd => simple_name (prefixed_simple _ (by decide) d (hf d hd))) [] [] (recs_nil _)
  have h3 := simple_rule (varsOf p) "clean".toList (fixed_simple _ (by decide) (by decide)) p.products
    (fun d => "clean-".toList ++ productTarget d) (fun d => "clean-".toList ++ productTarget d)
    (fun d hd rest => simple_expand (prefixed_simple _ (by decide) d (hp.products d hd)) _ rest)
    (fun d hd => simple_name (prefixed_simple _ (by decide) d (hp.products d hd))) [] [] (recs_nil _)
  exact rules_append h1 (rules_append h2 h3)

/-- **C103.**  For every project without special characters in the wrong places, `make` reads exactly
the rules it should from the generated file: targets and prerequisites are the paths of the outputs and
inputs, and after the expansion of variables and the splitting by the shell every command has exactly
the arguments that the build would use.  `Plain` says which characters are in the way; without it this
is wrong in many ways, see the findings. -/
theorem C103_rules_partial (p : Project) (hp : Plain p) :
    ∃ lines, generate p = some lines ∧ rules lines = some (want p) := by
  refine ⟨header p ++ p.products.flatMap (productLines p) ++ footer p, ?_, ?_⟩
  · unfold generate
    rw [if_neg]
    rintro (h | h | h)
    · exact plain_space hp.srcDir h
    · exact plain_space hp.buildDir h
    · rcases hp.installRoot with e | e
      · rw [e] at h; exact absurd h (by simp)
      · exact plain_space e h
  · have h := rules_append (rules_flatMap (productLines p) wantProduct p.products
      (fun d hd => product_rules p hp d (hp.products d hd))) (footer_rules p hp)
    unfold rules
    rw [List.append_assoc, readLines_append, header_read p hp, Option.bind_some, h]
    simp [want]

/-- **C103.**  No Makefile is generated when one of the three directories contains a space. -/
theorem C103_spaces (p : Project) :
    generate p = none ↔ ' ' ∈ p.srcDir ∨ ' ' ∈ p.buildDir ∨ ' ' ∈ p.installRoot := by
  unfold generate
  split
  · rename_i h; exact ⟨fun _ => h, fun _ => rfl⟩
  · rename_i h; exact ⟨fun hh => absurd hh (by simp), fun hh => absurd hh h⟩

/-- **C103.**  One command: whatever the program and its arguments are, as long as they contain no line
break and no reference to one of the three variables. -/
theorem C103_command (p : Project) (hp : Plain p) (exe : Str) (args : List Str) (wd : Str) (env : List (Str × Str))
    (h : PlainCommand (.process exe args wd env)) :
    ∃ s, commandLine? p (.process exe args wd env) = some ('\t' :: s) ∧ recipeLine (varsOf p) s = some (exe :: args) := by
  refine ⟨_, rfl, ?_⟩
  have := command_recs p hp _ h ⟨[], [], []⟩ []
  simp only [commandLine?, argv?, Option.toList, List.cons_append] at this
  rw [readLines, readLine] at this
  cases hr : recipeLine (varsOf p) (quote (bruteForce p exe) ++ spaced (args.map fun a => quote (bruteForce p a))) with
  | none => simp [hr] at this
  | some c =>
    simp only [hr, Option.bind_some, readLines] at this
    simpa using this

theorem legal_word (c : Char) (h : wordChar c) : legalChar c = true := by
  unfold legalChar
  rcases h with h | h | h | h | h
  · simp [h]
  · simp [h]
  · simp [h.1, h.2]
  · simp [h.1, h.2]
  · simp [h.1, h.2]

/-- **C103.**  A variable stands in the place of a directory just if the path is that of the directory or of a file below
it, so that it can be given another value. -/
theorem C103_below (path dir var : Str) :
    (path = dir ∨ (∃ t, path = dir ++ '/' :: t) → ∃ t, path = dir ++ t ∧
      replacePrefix path dir var = "$(".toList ++ var ++ ")".toList ++ t) ∧
    (¬ (path = dir ∨ ∃ t, path = dir ++ '/' :: t) → replacePrefix path dir var = path) := by
  unfold replacePrefix
  constructor
  · rintro (rfl | ⟨t, rfl⟩)
    · exact ⟨[], by simp, by simp⟩
    · exact ⟨'/' :: t, rfl, by simp⟩
  · intro h
    rw [if_neg]
    rintro ⟨h1, h2⟩
    rw [List.isPrefixOf_iff_prefix] at h1
    obtain ⟨t, rfl⟩ := h1
    apply h
    cases t with
    | nil => exact .inl (by simp)
    | cons c t =>
      rcases h2 with h2 | h2
      · simp at h2
      · simp at h2
        exact .inr ⟨t, by rw [h2]⟩

/-- **C103.**  Generated files and the others are each found relative to the directory they belong to. -/
theorem C103_variable (p : Project) (a : Artifact) :
    (a.generated = true → ∀ t, a.path = p.buildDir ++ '/' :: t →
      artifactPath p a = pathTarget ("$(BUILD_ROOT)".toList ++ '/' :: t)) ∧
    (a.generated = false → ∀ t, a.path = p.srcDir ++ '/' :: t →
      artifactPath p a = pathTarget ("$(SRCDIR)".toList ++ '/' :: t)) := by
  constructor
  · intro h t ht
    obtain ⟨t', h1, h2⟩ := (C103_below a.path p.buildDir "BUILD_ROOT".toList).1 (.inr ⟨t, ht⟩)
    have : t' = '/' :: t := List.append_cancel_left (h1.symm.trans ht)
    subst this
    unfold artifactPath
    rw [if_pos h]
    show pathTarget (replacePrefix a.path p.buildDir _) = _
    rw [h2]
    rfl
  · intro h t ht
    obtain ⟨t', h1, h2⟩ := (C103_below a.path p.srcDir "SRCDIR".toList).1 (.inr ⟨t, ht⟩)
    have : t' = '/' :: t := List.append_cancel_left (h1.symm.trans ht)
    subst this
    unfold artifactPath
    rw [if_neg (by rw [h]; decide)]
    show pathTarget (replacePrefix a.path p.srcDir _) = _
    rw [h2]
    rfl

/-- **C104.**  Different products have different targets, if their names are made of letters, digits,
dots and underscores and they are not multiplexed.  (Others can have the same one.) -/
theorem C104_targets_partial (d e : Product) (hd : d.multiplexId = []) (he : e.multiplexId = [])
    (h1 : ∀ c ∈ d.name, wordChar c) (h2 : ∀ c ∈ e.name, wordChar c)
    (h : productTarget d = productTarget e) : d.name = e.name := by
  have h1 : ∀ c ∈ d.name, legalChar c = true := fun c hc => legal_word c (h1 c hc)
  have h2 : ∀ c ∈ e.name, legalChar c = true := fun c hc => legal_word c (h2 c hc)
  have key : ∀ s : Str, (∀ c ∈ s, legalChar c = true) → s.map (fun c => if legalChar c then c else '_') = s := by
    intro s hs
    induction s with
    | nil => rfl
    | cons c s ih => rw [List.map_cons, if_pos (hs c (by simp)), ih fun c hc => hs c (by simp [hc])]
  simp only [productTarget, if_pos hd, if_pos he, key _ h1, key _ h2] at h
  exact h

/-- **C104.**  The target of a product needs no quoting. -/
theorem C104_legal (d : Product) (h : ∀ c ∈ d.multiplexId, legalChar c = true) :
    ∀ c ∈ productTarget d, legalChar c = true := by
  intro c hc
  have h1 : ∀ c ∈ d.name.map (fun c => if legalChar c then c else '_'), legalChar c = true := by
    intro c hc
    obtain ⟨e, -, rfl⟩ := List.mem_map.mp hc
    split
    · assumption
    · decide
  unfold productTarget at hc
  split at hc
  · exact h1 c hc
  · rcases List.mem_append.mp hc with hc | hc
    · exact h1 c hc
    · rcases List.mem_cons.mp hc with rfl | hc
      · decide
      · exact h c hc

/-- **C104.**  In the file, `all` and `install` need the products that are built by default, and `clean`
those that there are. -/
theorem C104_all_partial (p : Project) (hp : Plain p) :
    ∃ lines rs, generate p = some lines ∧ rules lines = some rs ∧
      (∀ d ∈ p.products, ∃ r ∈ rs, r.target = "clean".toList ∧ "clean-".toList ++ productTarget d ∈ r.needs) ∧
      (∀ d ∈ p.products, d.builtByDefault = true →
        (∃ r ∈ rs, r.target = "all".toList ∧ productTarget d ∈ r.needs) ∧
        ∃ r ∈ rs, r.target = "install".toList ∧ "install-".toList ++ productTarget d ∈ r.needs) := by
  obtain ⟨lines, h1, h2⟩ := C103_rules_partial p hp
  refine ⟨lines, _, h1, h2, ?_, ?_⟩
  · intro d hd
    exact ⟨⟨"clean".toList, p.products.map fun d => "clean-".toList ++ productTarget d, []⟩,
      by unfold want; exact List.mem_append_right _ (by simp), rfl, List.mem_map.mpr ⟨d, hd, rfl⟩⟩
  · intro d hd hb
    refine ⟨⟨⟨"all".toList, (p.products.filter (·.builtByDefault)).map productTarget, []⟩,
      by unfold want; exact List.mem_append_right _ (by simp), rfl, ?_⟩,
      ⟨"install".toList, (p.products.filter (·.builtByDefault)).map fun d => "install-".toList ++ productTarget d, []⟩,
      by unfold want; exact List.mem_append_right _ (by simp), rfl, ?_⟩
    · exact List.mem_map.mpr ⟨d, by simp [hd, hb], rfl⟩
    · exact List.mem_map.mpr ⟨d, by simp [hd, hb], rfl⟩

end Verif.Makefile
