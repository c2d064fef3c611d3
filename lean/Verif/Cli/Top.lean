import Verif.Cli.Props
/- C83: the choice of the command, help, the arguments for programs, and the log level. -/

namespace Verif.Cli

open Spec

theorem commandFromString_name (c : Cmd) : commandFromString (cmdName c) = some c := by
  cases c <;> decide +kernel

theorem commandFromString_none {w : Str} (h : ∀ c, w ≠ cmdName c) : commandFromString w = none := by
  unfold commandFromString
  rw [List.find?_eq_none]
  intro c _
  simpa using fun e => h c (Eq.symm e)

theorem any_isHelp_false {l : List Str} (h : "-h".toList ∉ l) (h' : "--help".toList ∉ l) :
    l.any isHelp = false := by
  rw [List.any_eq_false]
  intro w hw
  unfold isHelp
  rw [Bool.or_eq_true, decide_eq_true_eq, decide_eq_true_eq]
  rintro (rfl | rfl)
  · exact h hw
  · exact h' hw

theorem any_isHelp_true {l : List Str} (h : "-h".toList ∈ l ∨ "--help".toList ∈ l) :
    l.any isHelp = true := by
  rw [List.any_eq_true]
  rcases h with h | h
  · exact ⟨_, h, by decide⟩
  · exact ⟨_, h, by decide⟩

theorem doParse_of {num : Str → Option Int} {args : List Str} {c : Cmd} {rest : List Str}
    (h : chooseCommand args = (c, rest)) :
    doParse num args = (parse num c rest).map fun s => (c, s) := by
  unfold doParse
  rw [h]

theorem chooseCommand_some {w : Str} {c : Cmd} (h : commandFromString w = some c)
    (rest : List Str) :
    chooseCommand (w :: rest) = if rest.any isHelp then (.help, [w]) else (c, rest) := by
  unfold chooseCommand
  dsimp only
  rw [h]

theorem chooseCommand_none {w : Str} (h : commandFromString w = none) (rest : List Str) :
    chooseCommand (w :: rest) =
      if isHelp w then (.help, rest)
      else if w = "-V".toList || w = "--version".toList then (.version, rest)
      else (.build, w :: rest) := by
  unfold chooseCommand
  dsimp only
  rw [h]

/-- **C83.** A line that starts with the name of a command is a use of that command. -/
theorem C83_command (num : Str → Option Int) (c : Cmd) (rest : List Str)
    (h : "-h".toList ∉ rest) (h' : "--help".toList ∉ rest) :
    doParse num (cmdName c :: rest) = (parse num c rest).map fun s => (c, s) := by
  refine doParse_of ?_
  rw [chooseCommand_some (commandFromString_name c),
    if_neg (by rw [any_isHelp_false h h']; decide)]

/-- **C83.** A line that does not start with the name of a command and does not ask for help or for
the version is a use of the build command. -/
theorem C83_default_command (num : Str → Option Int) (args : List Str)
    (h : ∀ w ∈ args.head?, (∀ c, w ≠ cmdName c) ∧
      w ∉ ["-h", "--help", "-V", "--version"].map String.toList) :
    doParse num args = (parse num .build args).map fun s => (.build, s) := by
  refine doParse_of ?_
  cases args with
  | nil => rfl
  | cons w rest =>
    obtain ⟨h1, h2⟩ := h w rfl
    rw [chooseCommand_none (commandFromString_none h1)]
    have e1 : isHelp w = false := by
      unfold isHelp
      rw [Bool.or_eq_false_iff, decide_eq_false_iff_not, decide_eq_false_iff_not]
      exact ⟨fun e => h2 (by rw [e]; decide), fun e => h2 (by rw [e]; decide)⟩
    have e2 : (decide (w = "-V".toList) || decide (w = "--version".toList)) = false := by
      rw [Bool.or_eq_false_iff, decide_eq_false_iff_not, decide_eq_false_iff_not]
      exact ⟨fun e => h2 (by rw [e]; decide), fun e => h2 (by rw [e]; decide)⟩
    rw [e1, e2]
    rfl

/-- **C83.** Help for a command: `qbs help <command>`, `qbs -h <command>`, `qbs --help <command>`,
and `qbs <command>` with one of these switches among its words, whatever the other words are. -/
theorem C83_help (num : Str → Option Int) (c : Cmd) (rest : List Str)
    (h : "-h".toList ∈ rest ∨ "--help".toList ∈ rest) :
    doParse num (cmdName c :: rest) = .ok (.help, { topic := some (cmdName c) }) ∧
    ∀ w ∈ ["help", "-h", "--help"].map String.toList,
      doParse num [w, cmdName c] = .ok (.help, { topic := some (cmdName c) }) ∧
      doParse num [w] = .ok (.help, {}) := by
  have hp : ∀ w : Str, parse num .help [w] = .ok { topic := some w } := by
    intro w
    unfold parse
    rw [parseLoop_cons num _ _ _ _ _ (Nat.le_refl _)]
    rfl
  have hn : parse num .help [] = .ok {} := rfl
  refine ⟨?_, ?_⟩
  · rw [doParse_of (c := .help) (rest := [cmdName c]) (by
      rw [chooseCommand_some (commandFromString_name c), if_pos (any_isHelp_true h)]), hp]
    rfl
  · intro w hw
    have hnh : [cmdName c].any isHelp = false := by cases c <;> decide +kernel
    have key : ∀ rest, rest.any isHelp = false → chooseCommand (w :: rest) = (.help, rest) := by
      intro rest hr
      rcases List.mem_cons.1 hw with rfl | hw
      · have e : commandFromString "help".toList = some .help := by decide +kernel
        rw [chooseCommand_some e, if_neg (by rw [hr]; decide)]
      · have e : commandFromString w = none ∧ isHelp w = true := by
          rcases List.mem_cons.1 hw with rfl | hw
          · exact ⟨by decide +kernel, by decide⟩
          · rcases List.mem_cons.1 hw with rfl | hw
            · exact ⟨by decide +kernel, by decide⟩
            · simp at hw
        rw [chooseCommand_none e.1, if_pos e.2]
    exact ⟨by rw [doParse_of (key _ hnh), hp]; rfl, by rw [doParse_of (key _ rfl), hn]; rfl⟩

/-- **C83.** `qbs -V`, `qbs --version` and `qbs show-version` show the version and take no further
words. -/
theorem C83_version (num : Str → Option Int) (w x : Str) (rest : List Str)
    (hw : w ∈ ["-V", "--version", "show-version"].map String.toList)
    (h : "-h".toList ∉ x :: rest) (h' : "--help".toList ∉ x :: rest) :
    doParse num [w] = .ok (.version, {}) ∧ doParse num (w :: x :: rest) = .error .noArguments := by
  have key : ∀ rest, rest.any isHelp = false → chooseCommand (w :: rest) = (.version, rest) := by
    intro rest hr
    rcases List.mem_cons.1 hw with rfl | hw
    · rw [chooseCommand_none (by decide +kernel), if_neg (by decide), if_pos (by decide)]
    · rcases List.mem_cons.1 hw with rfl | hw
      · rw [chooseCommand_none (by decide +kernel), if_neg (by decide), if_pos (by decide)]
      · rcases List.mem_cons.1 hw with rfl | hw
        · rw [chooseCommand_some (c := .version) (by decide +kernel), if_neg (by rw [hr]; decide)]
        · simp at hw
  refine ⟨by rw [doParse_of (key _ rfl)]; rfl, ?_⟩
  rw [doParse_of (key _ (any_isHelp_false h h'))]
  unfold parse
  rw [parseLoop_cons num _ _ _ _ _ (Nat.le_refl _)]
  rfl

theorem reads_append_target {pre : List Str} {items : List Item} (h : Reads .run pre items)
    (ht : ∀ l, Item.target l ∉ items) (post : List Str) :
    Reads .run (pre ++ "--".toList :: post) (items ++ [.target post]) := by
  induction h with
  | done => exact .target rfl
  | @group l rest items hg _ ih =>
    rw [List.cons_append]
    refine .group hg ?_
    have := ih ht
    rw [List.append_assoc] at this
    exact this
  | flag hm hn ha _ ih =>
    exact .flag hm hn ha (ih fun l hl => ht l (List.mem_cons_of_mem _ hl))
  | argument hm hn ha _ ih =>
    exact .argument hm hn ha (ih fun l hl => ht l (List.mem_cons_of_mem _ hl))
  | assign ha _ ih => exact .assign ha (ih fun l hl => ht l (List.mem_cons_of_mem _ hl))
  | target => exact absurd List.mem_cons_self (ht _)

theorem targetOf_none {items : List Item} (ht : ∀ l, Item.target l ∉ items) :
    targetOf items = [] := by
  unfold targetOf
  rw [List.flatMap_eq_nil_iff]
  intro i hi
  cases i with
  | target l => exact absurd hi (ht l)
  | _ => rfl

/-- **C83, partial.** `qbs run ... -- <arguments>` passes the arguments to the program unchanged,
whatever they look like, and reads what precedes them as usual; missing: lines with the words "-h"
or "--help", for which it is false (`C83_run_help`). -/
theorem C83_run_arguments_partial (num : Str → Option Int) (pre post : List Str)
    (items : List Item) (h : Reads .run pre items) (ht : ∀ l, Item.target l ∉ items)
    (ho : Once items) (hp : AllProper num items)
    (h1 : "-h".toList ∉ pre ++ post) (h2 : "--help".toList ∉ pre ++ post) :
    doParse num ("run".toList :: (pre ++ "--".toList :: post)) =
      .ok (.run, { uses := optionsOf items, assignments := assignmentsOf items,
                   target := post }) := by
  have hm : ∀ w : Str, w ≠ "--".toList → w ∉ pre ++ post → w ∉ pre ++ "--".toList :: post := by
    intro w hw hn hm
    rcases List.mem_append.1 hm with hm | hm
    · exact hn (List.mem_append_left _ hm)
    · rcases List.mem_cons.1 hm with e | hm
      · exact hw e
      · exact hn (List.mem_append_right _ hm)
  have := C83_command num .run (pre ++ "--".toList :: post)
    (hm _ (by decide) h1) (hm _ (by decide) h2)
  show doParse num (cmdName .run :: _) = _
  rw [this]
  have hr := (C83_reads num .run ⟨by decide, by decide, by decide⟩ (pre ++ "--".toList :: post) _).2
    ⟨items ++ [.target post], reads_append_target h ht post, ?_, ?_, rfl⟩
  · rw [hr]
    simp only [Except.map]
    have e1 : optionsOf (items ++ [.target post]) = optionsOf items := by simp [optionsOf]
    have e2 : assignmentsOf (items ++ [.target post]) = assignmentsOf items := by
      simp [assignmentsOf]
    have e3 : targetOf (items ++ [.target post]) = post := by
      have : targetOf (items ++ [.target post]) = targetOf items ++ post := by simp [targetOf]
      rw [this, targetOf_none ht]; rfl
    rw [e1, e2, e3]
  · intro o a b
    have : uses o (items ++ [.target post]) = uses o items := by
      unfold uses
      rw [List.countP_append]
      simp
    rw [this]
    exact ho o a b
  · intro o v hm
    rcases List.mem_append.1 hm with hm | hm
    · exact hp o v hm
    · simp at hm

/-- **C83 finding.** A program cannot be asked for its help: `qbs run -- --help` shows the help of
qbs and runs nothing. -/
theorem C83_run_help (num : Str → Option Int) (pre post : List Str)
    (h : "-h".toList ∈ post ∨ "--help".toList ∈ post) :
    doParse num ("run".toList :: (pre ++ "--".toList :: post)) =
      .ok (.help, { topic := some "run".toList }) :=
  (C83_help num .run (pre ++ "--".toList :: post)
    (h.imp (fun h => List.mem_append_right _ (List.mem_cons_of_mem _ h))
      (fun h => List.mem_append_right _ (List.mem_cons_of_mem _ h)))).1

/-- **C83 finding.** An option that needs an argument takes the next word even if it is an option:
`qbs build -f -k` and `qbs build -fk` use the project file "-k" and do not keep going. -/
theorem C83_option_as_argument (num : Str → Option Int) :
    parse num .build ["-f".toList, "-k".toList] =
      .ok { uses := [(.file, some "-k".toList)] } ∧
    parse num .build ["-fk".toList] = .ok { uses := [(.file, some "-k".toList)] } := by
  have w : Works .build := ⟨by decide, by decide, by decide⟩
  have h := (C83_reads num .build w ["-f".toList, "-k".toList] _).2
    ⟨[.use .file (some "-k".toList)],
      .argument (by decide) ⟨by decide, .inl rfl⟩ rfl .done, ?_, ?_, rfl⟩
  · refine ⟨h, ?_⟩
    have g := C83_group num .build w [('f', []), ('k', [])]
      ⟨by decide, by decide, by decide⟩ []
    exact g.trans h
  · intro o _ _
    unfold uses
    exact Nat.le_trans (List.countP_le_length) (Nat.le_refl 1)
  · intro o v hm
    have : o = .file := by
      have := List.mem_singleton.1 hm
      injection this
    rw [this]
    exact trivial

/-- **C83 finding.** Without the name of a command the switches for help are only known at the
start of the line: `qbs --keep-going --help` is an error. -/
theorem C83_late_help (num : Str → Option Int) :
    doParse num ["--keep-going".toList, "--help".toList] =
      .error (.unknownOption "--help".toList) := by
  have e := C83_default_command num ["--keep-going".toList, "--help".toList] (by
    intro w hw
    have : w = "--keep-going".toList := by
      have : some w = some "--keep-going".toList := hw.symm
      exact Option.some.inj this
    subst this
    exact ⟨by intro c; cases c <;> decide, by decide⟩)
  rw [e]
  unfold parse
  rw [parseLoop_cons num _ _ _ _ _ (Nat.le_refl _),
    parseNext_named (o := .keepGoing) (w := "--keep-going".toList) ⟨by decide, by decide, by decide⟩ _ (by decide)
      ⟨by decide, .inr rfl⟩]
  rfl

/-- **C83.** The list given to --products and similar options is the list of the names between the
commas. -/
theorem C83_list (l : List Str) (hne : l ≠ []) (h : ∀ w ∈ l, w ≠ [] ∧ ',' ∉ w) :
    listArgument (commas l) = some l :=
  (listArgument_iff _ _).2 ⟨hne, h, rfl⟩

/-- **C83.** The log level is the given one plus the number of -v minus the number of -q, but not
below "error" (0) and not above "trace" (4); with a progress bar it is "error". -/
theorem C83_log_level (base verbose quiet : Nat) (progress : Bool) :
    logLevel base verbose quiet progress =
      if progress then 0 else max 0 (min 4 ((base : Int) + verbose - quiet)) := by
  unfold logLevel
  cases progress
  · simp only [Bool.false_and, Bool.false_eq_true, if_false]
    split
    · omega
    · split <;> omega
  · simp only [Bool.true_and, if_true]
    by_cases h : ((base : Int) + verbose - quiet) = 0
    · simp [h]
    · simp [h]

end Verif.Cli
