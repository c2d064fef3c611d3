import Verif.SettingsTree.Props

/-!
# Concrete cases for the settings tree
-/

namespace Verif.SettingsTree

/-- Texts as values, shown as they are. -/
def exRep : Option Str → Str
  | none => "undefined".toList
  | some s => s

def exUnrep (s : Str) : Str := s

/-- `defaultProfile`, and two profiles with two and one properties. -/
def exT : Trie Str :=
  .cons "defaultProfile".toList (some "gcc".toList) .nil <|
  .cons "profiles".toList none
    (.cons "clang".toList none (.cons "dir".toList (some "/usr/bin".toList) .nil .nil) <|
     .cons "gcc".toList none
      (.cons "dir".toList (some "/opt/bin".toList) .nil <|
       .cons "prefix".toList (some "x-".toList) .nil .nil) .nil) .nil

instance (n : Str) : Decidable (PlainName n) := inferInstanceAs (Decidable (_ ∧ _ ∧ _))

theorem exT_sound : Sound exT := by
  simp only [exT, Sound, tnames]
  decide

theorem exT_leafy : Leafy exT := by
  simp [exT, Leafy]

/-- The hypotheses of the theorems on histories: a history with all kinds of
edits that ends with unsaved changes. -/
def exOps : List Op :=
  [.add [1, 0], .rename [1, 0] 1 "flags".toList, .setVal [1, 0] 1 "-O2".toList, .remove [1, 1] 0,
   .add [], .add [], .setVal [] 0 "clang".toList, .rename [] 3 "jobs".toList]

example : ∀ o ∈ exOps, PlainOp o := by
  intro o ho
  simp only [exOps, List.mem_cons, List.not_mem_nil, or_false] at ho
  rcases ho with rfl | rfl | rfl | rfl | rfl | rfl | rfl | rfl
  all_goals first | trivial | (show PlainName _; decide)

example : (run ⟨read exRep exT, false⟩ exOps).dirty = true := by decide +kernel

/-- The values of some keys after saving. -/
def saved (s : St) (ps : List (List String)) : Option (List (Option Str)) :=
  (save exUnrep s (fun _ => none)).map (fun st => ps.map (fun p => st (p.map String.toList)))

example : saved (run ⟨read exRep exT, false⟩ exOps)
      [["defaultProfile"], ["profiles", "clang", "dir"], ["profiles", "clang", "flags"],
       ["profiles", "gcc", "dir"], ["profiles", "gcc", "prefix"], ["newkey"], ["jobs"]]
    = some [some "clang".toList, some "/usr/bin".toList, some "-O2".toList, none,
        some "x-".toList, some [], some []] := by decide +kernel

/-- Reading accepts additional properties. -/
example : (readSettings exRep exT [("profiles.gcc.dir".toList, "/tmp".toList)]).isSome = true := by
  decide +kernel

/-- The hypotheses of `C119_set_value_partial` and `C119_remove_partial`. -/
example : pathTo [1, 1] 0 (read exRep exT)
      = some ["profiles".toList, "gcc".toList, "dir".toList] ∧
    ((subAt [1, 1] (read exRep exT)).map (fun c => (names c).length)) = some 2 ∧
    ((subAt [1, 1] (read exRep exT)).bind (rowAt 0))
      = some ("dir".toList, "/opt/bin".toList, true, .nil) := by
  refine ⟨by decide +kernel, by decide +kernel, by decide +kernel⟩

/-- The hypothesis of `C119_clean`: edits that change nothing. -/
example : (run ⟨read exRep exT, false⟩
    [.rename [1] 0 "gcc".toList, .setVal [] 0 "gcc".toList, .remove [7] 0]).dirty = false := by
  decide +kernel

/-- **C119 finding.** A name with a dot in it is accepted, although it stands for the
same key as another node: two values are shown and one of them is lost. -/
theorem C119_finding_dots :
    let s := run ⟨read exRep exT, false⟩ [.add [], .rename [] 2 "profiles.clang.dir".toList,
      .setVal [] 2 "/bad".toList]
    Shows s.tree ["profiles".toList, "clang".toList, "dir".toList] "/usr/bin".toList ∧
      saved s [["profiles", "clang", "dir"]] = some [some "/bad".toList] := by
  refine ⟨?_, by decide +kernel⟩
  have h : (run ⟨read exRep exT, false⟩ [.add [], .rename [] 2 "profiles.clang.dir".toList,
      .setVal [] 2 "/bad".toList]).tree =
    .cons "defaultProfile".toList "gcc".toList true .nil
     (.cons "profiles".toList "undefined".toList true
      (.cons "clang".toList "undefined".toList true
        (.cons "dir".toList "/usr/bin".toList true .nil .nil)
       (.cons "gcc".toList "undefined".toList true
        (.cons "dir".toList "/opt/bin".toList true .nil
         (.cons "prefix".toList "x-".toList true .nil .nil)) .nil))
      (.cons "profiles.clang.dir".toList "/bad".toList true .nil .nil)) := by decide +kernel
  show Shows (run _ _).tree _ _
  rw [h]
  exact .rest (.sub (.sub .here))

/-- **C119 finding.** Removing the last property of a profile leaves a value under the
name of the profile. -/
theorem C119_finding_last_child :
    saved (run ⟨read exRep exT, false⟩ [.remove [1, 0] 0])
      [["profiles", "clang", "dir"], ["profiles", "clang"]]
      = some [none, some "undefined".toList] := by decide +kernel

/-- **C119 finding.** The special profile name `none`, which `Settings::setValue`
refuses, can be stored: the keys that are written begin with a dot, and the
check of new names is avoided by a name with a dot or by renaming the parent. -/
theorem C119_finding_none :
    step ⟨read exRep exT, false⟩ (.rename [1] 0 "none".toList) = ⟨read exRep exT, false⟩ ∧
    saved (run ⟨read exRep exT, false⟩ [.rename [] 0 "profiles.none.x".toList])
      [["profiles", "none", "x"]] = some [some "gcc".toList] ∧
    saved (run ⟨read exRep exT, false⟩
      [.rename [] 1 "p".toList, .rename [1] 0 "none".toList, .rename [] 1 "profiles".toList])
      [["profiles", "none", "dir"]] = some [some "/usr/bin".toList] ∧
    (setValue (fun _ => none) "profiles.none.x".toList "gcc".toList).isNone = true := by
  refine ⟨by decide +kernel, by decide +kernel, by decide +kernel, by decide +kernel⟩

/-- **C119 finding.** `Settings::setValue` refuses every profile whose name only begins
with `none`. -/
theorem C119_finding_nonesuch :
    (setValue (fun _ => none) "profiles.nonesuch.x".toList "gcc".toList).isNone = true := by
  decide +kernel

/-- **C119 finding.** Adding a key below a key with a value removes that value. -/
theorem C119_finding_add_below :
    saved (run ⟨read exRep exT, false⟩ [.add [0]]) [["defaultProfile"], ["defaultProfile", "newkey"]]
      = some [none, some []] := by decide +kernel

/-- **C119 finding.** The additional properties, which are shown as not being from the
settings, are stored with the settings as soon as anything is saved. -/
theorem C119_finding_additional :
    ((readSettings exRep exT [("preferences.jobs".toList, "4".toList)]).map
      (fun f => saved (run ⟨f, false⟩ [.setVal [] 0 "clang".toList]) [["preferences", "jobs"]]))
      = some (some [some "4".toList]) := by decide +kernel

/-- **C119 finding.** An additional property without a name makes the program access an
empty list. -/
theorem C119_finding_empty_additional :
    readSettings exRep exT [([], "4".toList)] = none ∧
      readSettings exRep exT [(".".toList, "4".toList)] = none := by
  refine ⟨by decide +kernel, by decide +kernel⟩

/-- The hypotheses of `C119_finding_value_lost`. -/
example : PlainName "a".toList ∧ PlainName "b".toList := by decide

end Verif.SettingsTree
