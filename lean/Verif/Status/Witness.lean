import Verif.Status.Props

/-!
# Concrete cases for `qbs status`
-/

namespace Verif.Status

/-- No expression beyond the interpreted ones occurs below. -/
def never : Str → Str → Bool := fun _ _ => false

/-- The directory of a project: a project file, a makefile, sources, a build
directory, a hidden file and documents. -/
def exTree : Entries :=
  .file ".gitignore".toList <|
  .file "Makefile".toList <|
  .file "app.qbs".toList <|
  .dir "build-debug".toList (.file "app".toList .nil) <|
  .file "builder.cpp".toList <|
  .dir "doc".toList (.file "a.md".toList (.dir "old".toList (.file "b.md".toList .nil) .nil)) <|
  .file "main.cpp".toList <|
  .file "main.o".toList <|
  .file "notes.txt".toList .nil

def exRoot : Str := "/home/me/app".toList

def exPs : List Product :=
  [[["/home/me/app/main.cpp".toList, "/home/me/app/gone.cpp".toList], ["/usr/share/common/x.cpp".toList]],
   [["/home/me/app/main.cpp".toList]]]

def exExist (f : Str) : Bool := f != "/home/me/app/gone.cpp".toList

example : Wf exTree := by simp [exTree, Wf, names]

/-- The report of the example: one missing file, and the makefile, the project
file and the object file among the untracked ones. -/
example : (printStatus never exExist exRoot (some "/doc/old\n".toList) exTree exPs).untracked =
    ["Makefile".toList, "app.qbs".toList, "doc/a.md".toList, "main.o".toList, "notes.txt".toList] := by
  decide +kernel

example : (printStatus never exExist exRoot (some "/doc/old\n".toList) exTree exPs).missing =
    ["gone.cpp".toList] := by decide +kernel

/-- The hypotheses of `C118_untracked` and `C118_accounted` are met by a file two
directories down. -/
example : FileAt exTree ["doc".toList, "old".toList, "b.md".toList] := by
  refine .fileRest (.fileRest (.fileRest (.dirRest (.fileRest (.dir (.fileRest (.dir .file)))))))

theorem visible_of (ign : Str → Bool) (root a b c : Str)
    (h : [a, b, c].all (fun x => x.head? != some '.') = true)
    (h1 : ign (pathOf root [a]) = false) (h2 : ign (pathOf root [a, b]) = false)
    (h3 : ign (pathOf root [a, b, c]) = false) : Visible ign root [a, b, c] := by
  refine ⟨?_, ?_⟩
  · intro x hx
    have := List.all_eq_true.mp h x hx
    simpa using this
  · intro k hk hl
    match k, hk, hl with
    | 1, _, _ => exact h1
    | 2, _, _ => exact h2
    | 3, _, _ => exact h3

example : Visible (ignored never exRoot none) exRoot ["doc".toList, "old".toList, "b.md".toList] :=
  visible_of _ _ _ _ _ (by decide +kernel) (by decide +kernel) (by decide +kernel) (by decide +kernel)

/-- The hypotheses of `C118_build_partial` and `C118_ignore_line_partial`. -/
example : Plain exRoot ∧ Plain "doc/old".toList := by
  constructor <;> intro c hc <;> revert c <;> decide +kernel

/-- Quantifiers: a possessive repetition keeps what it has taken. -/
theorem C118_quantifiers :
    matchPat never "c++".toList "ccc".toList = true ∧ matchPat never "a++a".toList "aaa".toList = false ∧
    matchPat never "a+a".toList "aaa".toList = true ∧ matchPat never "c++".toList "c++".toList = false :=
  ⟨by decide +kernel, by decide +kernel, by decide +kernel, by decide +kernel⟩

/-- **C118 finding.** The path of the project is put into a regular expression as
it is: if it has a plus sign in it, the files in the build directory are
reported as untracked. -/
theorem C118_finding_plus :
    (printStatus never exExist "/home/me/c++".toList none
      (.dir "build".toList (.file "app".toList .nil) .nil) []).untracked
      = ["build/app".toList] ∧
    (printStatus never exExist "/home/me/cc".toList none
      (.dir "build".toList (.file "app".toList .nil) .nil) []).untracked = [] :=
  ⟨by decide +kernel, by decide +kernel⟩

/-- **C118 finding.** The pattern for the build directories has no end: an
untracked source file `builder.cpp` next to the project file is not reported. -/
theorem C118_finding_builder :
    FileAt exTree ["builder.cpp".toList] ∧ ¬ Tracked exPs (pathOf exRoot ["builder.cpp".toList]) ∧
      "builder.cpp".toList ∉ (printStatus never exExist exRoot none exTree exPs).untracked := by
  refine ⟨.fileRest (.fileRest (.fileRest (.dirRest .file))), ?_, by decide +kernel⟩
  rw [← tracked_iff]
  decide +kernel

/-- **C118 finding.** A file outside the project directory is printed with the
start of its path cut off, whatever that start is: two files have the same
name in the report. -/
theorem C118_finding_outside :
    (printStatus never exExist exRoot none .nil
      [[["/usr/share/common/x.cpp".toList, "/home/me/app/mmon/x.cpp".toList]]]).listed
      = ["mmon/x.cpp".toList, "mmon/x.cpp".toList] := by decide +kernel

/-- **C118 finding.** Project files, makefiles and object files are meant to be
ignored but are reported as untracked. -/
theorem C118_finding_reported :
    "app.qbs".toList ∈ (printStatus never exExist exRoot none exTree exPs).untracked ∧
    "Makefile".toList ∈ (printStatus never exExist exRoot none exTree exPs).untracked ∧
    "main.o".toList ∈ (printStatus never exExist exRoot none exTree exPs).untracked ∧
    "*.o".toList ∈ wildcards :=
  ⟨by decide +kernel, by decide +kernel, by decide +kernel, by decide +kernel⟩

/-- A line without a slash at its start ignores nothing, the same line with one
ignores the file. -/
example :
    "notes.txt".toList ∈ (printStatus never exExist exRoot (some "notes.txt".toList) exTree exPs).untracked ∧
    "notes.txt".toList ∉ (printStatus never exExist exRoot (some "/notes.txt".toList) exTree exPs).untracked :=
  ⟨by decide +kernel, by decide +kernel⟩

end Verif.Status
