import Verif.Cli.Top
import Verif.Cli.Config
/- Concrete command lines that meet the hypotheses of C83 and C84. -/

namespace Verif.Cli.Witness

open Spec

/-- Numbers with one digit are enough here. -/
def num : Str → Option Int
  | [c] => if c.isDigit then some (c.toNat - 48) else none
  | _ => none

def words (l : List String) : List Str := l.map String.toList

/-- qbs build -kvvj4 --products app,tool -f x.qbs profile:gcc config:debug -/
example : (parse num .build (words ["-kvvj4", "--products", "app,tool", "-f", "x.qbs",
      "profile:gcc", "config:debug"])).toOption =
    some { uses := [(.keepGoing, none), (.verbose, none), (.verbose, none),
            (.jobs, some "4".toList), (.products, some "app,tool".toList),
            (.file, some "x.qbs".toList)],
           assignments := words ["profile:gcc", "config:debug"] } := by
  decide +kernel

/-- `C83_reads`, from right to left. -/
example : parse num .build (words ["-kj4", "config:debug"]) =
    .ok { uses := [(.keepGoing, none), (.jobs, some "4".toList)],
          assignments := words ["config:debug"] } := by
  refine (C83_reads num .build ⟨by decide, by decide, by decide⟩ _ _).2
    ⟨[.use .keepGoing none, .use .jobs (some "4".toList), .assign "config:debug".toList],
      ?_, ?_, ?_, rfl⟩
  · refine .group (l := [('k', []), ('j', ['4'])]) ⟨by decide, by decide, by decide⟩ ?_
    refine .flag (w := "-k".toList) (by decide) ⟨by decide, .inl rfl⟩ rfl ?_
    refine .argument (w := "-j".toList) (by decide) ⟨by decide, .inl rfl⟩ rfl ?_
    refine .assign ⟨"config".toList, "debug".toList, rfl, by decide, by decide, by decide,
      .inl (by decide)⟩ .done
  · intro o _ _
    cases o <;> decide
  · intro o v hm
    rcases List.mem_cons.1 hm with e | hm
    · cases e
    rcases List.mem_cons.1 hm with e | hm
    · cases e
      exact ⟨4, by decide, by decide⟩
    · simp at hm

/-- Errors. -/
def errorOf {α} : Except Err α → Option Err
  | .error e => some e
  | .ok _ => none

example : errorOf (parse num .build (words ["-k", "-vk"])) = some (.repeated "-k".toList) ∧
    errorOf (parse num .build (words ["-j", "0"])) = some (.badArgument .jobs "0".toList) ∧
    errorOf (parse num .build (words ["-p", "a,,b"])) =
      some (.badArgument .products "a,,b".toList) ∧
    errorOf (parse num .build (words ["-4k"])) = some (.numericOption "4".toList) ∧
    errorOf (parse num .clean (words ["cpp.x:1"])) = some .noAssignments ∧
    errorOf (parse num .build (words ["--generator", "x"])) =
      some (.unknownOption "--generator".toList) ∧
    errorOf (parse num .build (words ["debug"])) = some (.unexpectedParameter "debug".toList) ∧
    errorOf (parse num .build (words ["-f"])) = some (.missingArgument .file) := by
  decide +kernel

/-- `C83_run_arguments_partial`: qbs run -p app -- -v --products x -/
example : doParse num (words ["run", "-p", "app", "--", "-v", "--products", "x"]) =
    .ok (.run, { uses := [(.products, some "app".toList)],
                 target := words ["-v", "--products", "x"] }) := by
  refine C83_run_arguments_partial num (words ["-p", "app"]) (words ["-v", "--products", "x"])
    [.use .products (some "app".toList)]
    (.argument (by decide) ⟨by decide, .inl rfl⟩ rfl .done) (by intro l h; simp at h) ?_ ?_
    (by decide) (by decide)
  · intro o _ _
    exact Nat.le_trans List.countP_le_length (Nat.le_refl 1)
  · intro o v hm
    have e := List.mem_singleton.1 hm
    cases e
    exact ⟨["app".toList], by decide, by decide, rfl⟩

/-- `C83_run_help`. -/
example : (doParse num (words ["run", "-p", "app", "--", "--help"])).toOption =
    some (.help, { topic := some "run".toList }) := by decide +kernel

/-- `C83_command`, `C83_default_command`, `C83_help`, `C83_version`. -/
example : ((doParse num (words ["resolve", "-v"])).toOption.map Prod.fst) = some .resolve ∧
    ((doParse num (words ["-v", "config:x"])).toOption.map Prod.fst) = some .build ∧
    ((doParse num (words ["-h", "clean"])).toOption) =
      some (.help, { topic := some "clean".toList }) ∧
    ((doParse num (words ["-V"])).toOption.map Prod.fst) = some .version := by
  decide +kernel

/-- `C83_list`, `C83_log_level`. -/
example : listArgument "app,tool".toList = some (words ["app", "tool"]) ∧
    logLevel 2 1 0 false = 3 ∧ logLevel 2 5 0 false = 4 ∧ logLevel 2 0 7 false = 0 ∧
    logLevel 2 1 0 true = 0 := by decide +kernel

/-- A line with a global property and two sections. -/
def line : List Str :=
  words ["profile:gcc", "cpp.a:1", "config:debug", "cpp.a:2", "config:release", "cpp.b:3"]

theorem line_names : Names line (words ["debug", "release"]) := by
  have no : ∀ (a : Str), ':' ∈ a → ¬ isCfg a → ∀ n, ¬ Starts a n :=
    fun a _ h n hs => h (isCfg_of_starts hs).1
  refine .skip (no _ (by decide) (by decide +kernel)) ?_
  refine .skip (no _ (by decide) (by decide +kernel)) ?_
  refine .start (.inl rfl) ?_
  refine .skip (no _ (by decide) (by decide +kernel)) ?_
  refine .start (.inl rfl) ?_
  refine .skip (no _ (by decide) (by decide +kernel)) ?_
  exact .nil

/-- `C84_names`. -/
example : (setupBuildConfigurations line).map (get configurationNameKey) =
    (words ["debug", "release"]).map some := by
  have := C84_names line _ (by decide) line_names
  rw [this]
  decide +kernel

/-- `C84_value`: the section for debug. -/
example : ∃ conf ∈ setupBuildConfigurations line,
    get configurationNameKey conf = some "debug".toList ∧
    get "cpp.a".toList conf = some "2".toList ∧
    get "qbs.profile".toList conf = some "gcc".toList := by
  have no : ∀ (a : Str), ¬ isCfg a → ∀ n, ¬ Starts a n :=
    fun a h n hs => h (isCfg_of_starts hs).1
  obtain ⟨conf, hm, hn, hv⟩ := C84_value line (by decide)
    (words ["profile:gcc", "cpp.a:1"])
    (words ["config:debug", "cpp.a:2", "config:release", "cpp.b:3"]) rfl
    (by
      intro a ha
      rcases List.mem_cons.1 ha with rfl | ha
      · exact no _ (by decide +kernel)
      rcases List.mem_cons.1 ha with rfl | ha
      · exact no _ (by decide +kernel)
      · cases ha)
    (by
      intro a ha
      have : a = "config:debug".toList := Option.some.inj (Eq.symm ha)
      exact ⟨"debug".toList, by rw [this]; exact .inl rfl⟩)
    (words ["profile:gcc", "cpp.a:1"]) (words ["cpp.a:2"])
    (words ["config:release", "cpp.b:3"]) "config:debug".toList "debug".toList rfl (.inl rfl)
    (by
      intro a ha
      rcases List.mem_cons.1 ha with rfl | ha
      · exact no _ (by decide +kernel) _
      rcases List.mem_cons.1 ha with rfl | ha
      · exact no _ (by decide +kernel) _
      · cases ha)
    (by
      intro a ha
      rcases List.mem_cons.1 ha with rfl | ha
      · exact no _ (by decide +kernel)
      · cases ha)
    (by
      intro a ha
      have : a = "config:release".toList := Option.some.inj (Eq.symm ha)
      exact ⟨"release".toList, by rw [this]; exact .inl rfl⟩)
  refine ⟨conf, hm, hn, ?_, ?_⟩
  · exact hv _ (by decide +kernel) (some "2".toList) (some "1".toList)
      (.hit (as := []) (k := "cpp.a".toList) (by decide) (by decide +kernel))
      (.hit (as := words ["profile:gcc"]) (k := "cpp.a".toList) (by decide) (by decide +kernel))
  · exact hv _ (by decide +kernel) none (some "gcc".toList)
      (.miss (as := []) (k := "cpp.a".toList) (v := "2".toList) (by decide) (by decide +kernel)
        .nil)
      (.miss (as := words ["profile:gcc"]) (k := "cpp.a".toList) (v := "1".toList) (by decide)
        (by decide +kernel)
        (.hit (as := []) (k := "profile".toList) (by decide) (by decide +kernel)))

/-- The whole result, and `C84_default`. -/
example : setupBuildConfigurations line =
    [[("cpp.a".toList, "2".toList), ("qbs.configurationName".toList, "debug".toList),
        ("qbs.profile".toList, "gcc".toList)],
      [("cpp.a".toList, "1".toList), ("cpp.b".toList, "3".toList),
        ("qbs.configurationName".toList, "release".toList),
        ("qbs.profile".toList, "gcc".toList)]] ∧
    setupBuildConfigurations (words ["profile:gcc"]) =
      [[("qbs.configurationName".toList, "default".toList),
        ("qbs.profile".toList, "gcc".toList)]] := by
  decide +kernel

/-- `C84_repeated`. -/
example : (setupBuildConfigurations (words ["config:debug", "cpp.a:1", "config:debug",
    "cpp.a:2"])).map (get "cpp.a".toList) = [some "1".toList] := by decide +kernel

end Verif.Cli.Witness
