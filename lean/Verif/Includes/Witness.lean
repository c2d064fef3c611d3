import Verif.Includes.Props
/-!
# C51: the hypotheses can be met, and findings
-/
namespace Verif.Includes

def cs (s : String) : Str := s.toList

/-! ## A product with a source that includes a generated header, which includes others -/

def mainCpp : Artifact := ⟨1, cs "/s", cs "main.cpp", 0, true⟩
def mainObj : Artifact := ⟨2, cs "/b", cs "main.o", 0, false⟩
def genH : Artifact := ⟨3, cs "/b/gen", cs "gen.h", 0, false⟩
def otherH : Artifact := ⟨4, cs "/b/gen", cs "gen.h", 1, false⟩

/-- `/inc/sys.h` and `/inc/loop.h` include each other; the generated header is built. -/
def world : World where
  arts := [mainCpp, mainObj, otherH, genH]
  known := []
  onDisk p := p == cs "/inc/sys.h" || p == cs "/inc/loop.h"
  resolvePath a b := a ++ '/' :: b
  cleanPath p := p
  dependsOn _ _ := false
  trafo a := if a = 2 then some 7 else if a = 3 then some 8 else none
  built a := a == 3
  leadsTo _ _ := false

def scanOf (p : Str) : List Dep :=
  if p = cs "/s/main.cpp" then [⟨[], cs "gen.h"⟩, ⟨[], cs "missing.h"⟩]
  else if p = cs "/b/gen/gen.h" then [⟨[], cs "sys.h"⟩]
  else if p = cs "/inc/sys.h" then [⟨[], cs "loop.h"⟩]
  else if p = cs "/inc/loop.h" then [⟨[], cs "sys.h"⟩]
  else []

def job : Job := ⟨5, true, mainCpp, scanOf, [cs "/b/gen", cs "/inc"]⟩
def jobKeys : Nat → List Str × Nat := fun _ => ([cs "/b/gen", cs "/inc"], 0)
def before : Deps := ⟨[cs "/old.h"], [1, 9], [9], false⟩

theorem scanOf_names (p : Str) : ∀ d ∈ scanOf p, '/' ∉ d.name := by
  have : scanOf p ∈ [[⟨[], cs "gen.h"⟩, ⟨[], cs "missing.h"⟩], [⟨[], cs "sys.h"⟩], [⟨[], cs "loop.h"⟩], []] := by
    unfold scanOf
    repeat' split
    all_goals simp
  revert this
  generalize scanOf p = l
  revert l
  decide

theorem job_names : NamesOk [job] := by
  intro j hj p
  rw [List.mem_singleton] at hj
  subst hj
  exact scanOf_names p

theorem job_keys : KeysOk jobKeys [job] := by
  intro j hj
  rw [List.mem_singleton] at hj
  subst hj
  rfl

theorem empty_cache (w : World) (keys : Nat → List Str × Nat) : CacheOk w keys [] := by
  intro k e h
  cases h

set_option maxRecDepth 100000 in
/-- The header of the product itself is found, and through it the others, the cycle notwithstanding. -/
example : (update world 2 20 [job] [] before).map (·.deps) =
    some ⟨[cs "/inc/sys.h", cs "/inc/loop.h", cs "/inc/sys.h"], [3, 1], [3], true⟩ := by decide +kernel

set_option maxRecDepth 100000 in
example : ∃ r, update world 2 20 [job] [] before = some r ∧ NamesOk [job] ∧ KeysOk jobKeys [job] ∧
    CacheOk world jobKeys [] ∧ ∃ j ∈ [job], Found world j (.dep (cs "/inc/loop.h")) := by
  have h : (update world 2 20 [job] [] before).isSome = true := by decide +kernel
  obtain ⟨r, hr⟩ := Option.isSome_iff_exists.mp h
  refine ⟨r, hr, job_names, job_keys, empty_cache _ _, job, by simp, ?_⟩
  have s1 : Scanned world job (cs "/s/main.cpp") := .start
  have s2 : Scanned world job (cs "/b/gen/gen.h") :=
    .next (d := ⟨[], cs "gen.h"⟩) (f := .art genH) rfl s1 (by decide) (by decide +kernel) ((scannable_iff _ _).mp rfl)
  have s3 : Scanned world job (cs "/inc/sys.h") :=
    .next (d := ⟨[], cs "sys.h"⟩) (f := .dep (cs "/inc/sys.h")) rfl s2 (by decide) (by decide +kernel) ((scannable_iff _ _).mp rfl)
  exact ⟨_, ⟨[], cs "loop.h"⟩, s3, by decide, by decide +kernel⟩

/-- `C51_resolution`: the name is relative, found in the first search path, or nowhere. -/
example : Path.isAbsolute (Dep.path ⟨[], cs "gen.h"⟩) = false ∧ job.target world ⟨[], cs "gen.h"⟩ = some (.art genH) ∧
    job.target world ⟨[], cs "missing.h"⟩ = none := by
  refine ⟨?_, ?_, ?_⟩ <;> decide +kernel

/-- `C51_place` and `C51_place_dots`. -/
example : (Dep.isClean ⟨[], cs "gen.h"⟩ = true) ∧ world.cleanPath (cs "/b/gen") = cs "/b/gen" ∧
    '.' ∈ (Dep.ofPath (cs "../x/gen.h")).dir := by decide +kernel

/-- `C51_cpp_scan`. -/
example : cppScan (fun p => p == cs "/s/x.h") (cs "/s") [⟨cs "x.h", true⟩, ⟨cs "x.h", false⟩, ⟨cs "y.h", true⟩] =
    [⟨cs "/s", cs "x.h"⟩, ⟨[], cs "x.h"⟩, ⟨[], cs "y.h"⟩] := by decide +kernel

/-- `C51_resolution_absolute`. -/
example : Path.isAbsolute (Dep.path (.ofPath (cs "/inc/sys.h"))) = true ∧
    job.target world (.ofPath (cs "/inc/sys.h")) = some (.dep (cs "/inc/sys.h")) := by
  refine ⟨?_, ?_⟩ <;> decide +kernel

/-- `C51_terminates`: finitely many files. -/
example : ∀ p, world.onDisk p = true → p ∈ [cs "/inc/sys.h", cs "/inc/loop.h"] := by
  intro p hp
  simpa [world] using hp

/-! ## Findings -/

/-- The job with other search paths and other contents of the source. -/
def jobWith (deps : List Dep) (paths : List Str) : Job :=
  ⟨5, true, mainCpp, fun p => if p = cs "/s/main.cpp" then deps else [], paths⟩

set_option maxRecDepth 100000 in
/-- **C51 finding.** Search paths given by a `Scanner` item are not cleaned: an artifact in a search path spelled with
    "./" is not recognized, whatever path resolution and cleaning do. If the file is there already, it becomes a mere
    file dependency, so that nothing waits for it to be rebuilt; if it is not, nothing is found. -/
theorem C51_unclean_search_path (resolvePath : Str → Str → Str) (cleanPath : Str → Str) :
    let w : World := { world with resolvePath := resolvePath, cleanPath := cleanPath }
    ((update { w with onDisk := fun p => p == cs "/b/./gen/gen.h" } 2 20
      [jobWith [⟨[], cs "gen.h"⟩] [cs "/b/./gen"]] [] before).map (·.deps) =
        some ⟨[cs "/b/./gen/gen.h"], [1], [], true⟩) ∧
    ((update { w with onDisk := fun _ => false } 2 20
      [jobWith [⟨[], cs "gen.h"⟩] [cs "/b/./gen"]] [] before).map (·.deps) = some ⟨[], [1], [], true⟩) ∧
    ((update { w with onDisk := fun _ => false } 2 20
      [jobWith [⟨[], cs "gen.h"⟩] [cs "/b/gen"]] [] before).map (·.deps) = some ⟨[], [3, 1], [3], true⟩) :=
  ⟨rfl, rfl, rfl⟩

/-- **C51 finding.** A file in the root directory given by its absolute path is taken for a relative name: it is not
    found, or another file of that name in a search path is taken for it. -/
theorem C51_file_in_root_directory :
    let j := jobWith [.ofPath (cs "/x.h")] [cs "/inc"]
    j.target { world with onDisk := fun p => p == cs "/x.h" } (.ofPath (cs "/x.h")) = none ∧
    j.target { world with onDisk := fun p => p == cs "/x.h" || p == cs "/inc/x.h" } (.ofPath (cs "/x.h")) =
      some (.dep (cs "/inc/x.h")) := by
  refine ⟨?_, ?_⟩ <;> decide +kernel

def withX (dirs : List Str) : World := { world with onDisk := fun p => dirs.any (fun d => p == d ++ cs "/x.h") }

/-- What is found in the source that has `#include "x.h"`, when `x.h` is in the given directories. -/
def scanX (dirs : List Str) : List Dep := cppScan (withX dirs).onDisk (cs "/s") [⟨cs "x.h", true⟩]

set_option maxRecDepth 100000 in
/-- **C51 finding.** Whether an include in quotes is meant relative to the including file is decided when that file is
    scanned, and remembered with the result. If the header moves from the directory of the source to one of the include
    paths, the unchanged source is not scanned again and the dependency is lost: the object is compiled once more, but
    later changes of the header go unnoticed. A fresh scan finds it. -/
theorem C51_moved_header_lost :
    (update (withX [cs "/s"]) 2 20 [jobWith (scanX [cs "/s"]) [cs "/inc"]] [] before).map (·.deps.fileDeps) =
      some [cs "/s/x.h"] ∧
    (update (withX [cs "/inc"]) 2 20 [jobWith (scanX [cs "/s"]) [cs "/inc"]] [] before).map (·.deps.fileDeps) =
      some [] ∧
    (update (withX [cs "/inc"]) 2 20 [jobWith (scanX [cs "/inc"]) [cs "/inc"]] [] before).map (·.deps.fileDeps) =
      some [cs "/inc/x.h"] := by
  refine ⟨?_, ?_, ?_⟩ <;> decide +kernel

set_option maxRecDepth 100000 in
/-- **C51 finding.** For the same reason, a header that is added beside the source and takes precedence over one in an
    include path is not noticed: the dependencies remain those of before, so the object is not even compiled again. -/
theorem C51_shadowing_header_missed :
    (update (withX [cs "/s", cs "/inc"]) 2 20 [jobWith (scanX [cs "/inc"]) [cs "/inc"]] []
      ⟨[cs "/inc/x.h"], [1], [], false⟩).map (·.deps) = some ⟨[cs "/inc/x.h"], [1], [], false⟩ ∧
    (update (withX [cs "/s", cs "/inc"]) 2 20 [jobWith (scanX [cs "/s", cs "/inc"]) [cs "/inc"]] []
      ⟨[cs "/inc/x.h"], [1], [], false⟩).map (·.deps) = some ⟨[cs "/s/x.h"], [1], [], true⟩ := by
  refine ⟨?_, ?_⟩ <;> decide +kernel

def noHeader : World := { world with arts := [mainCpp, mainObj] }
def genJob : Job := jobWith [⟨[], cs "gen.h"⟩] [cs "/b/gen"]

set_option maxRecDepth 100000 in
/-- **C51 finding.** That a name could not be resolved is remembered for the whole build: an artifact created by a rule
    later in that build is not found, although it would be without the cache. -/
theorem C51_new_artifact_not_found :
    ∃ r, update noHeader 2 20 [genJob] [] before = some r ∧
      (update world 2 20 [genJob] r.cache before).map (·.deps.scanned) = some [] ∧
      (update world 2 20 [genJob] [] before).map (·.deps.scanned) = some [3] :=
  ⟨_, rfl, rfl, rfl⟩

set_option maxRecDepth 100000 in
/-- **C51 finding.** An artifact that was found stays in the cache when it is removed and deleted later in the build:
    then an object is made to depend on an artifact that does not exist any more. -/
theorem C51_deleted_artifact_found :
    ∃ r, update world 2 20 [genJob] [] before = some r ∧
      (update noHeader 2 20 [genJob] r.cache before).map (·.deps.scanned) = some [3] ∧
      ∀ a ∈ noHeader.arts, a.id ≠ 3 :=
  ⟨_, rfl, rfl, by decide⟩

set_option maxRecDepth 100000 in
/-- **C51 finding.** Before scanning, all children that a scanner had added are removed, even those that have become
    children for another reason in the meantime: if the input 1 had been found by a scanner before it became an input
    and is not included any more, the object does not depend on its own input afterwards. -/
theorem C51_input_disconnected :
    (update world 2 20 [jobWith [] []] [] ⟨[], [1], [1], false⟩).map (·.deps) = some ⟨[], [], [], false⟩ := by
  decide +kernel

set_option maxRecDepth 100000 in
/-- **C51 finding.** A generated header that is not built yet is not followed: what it includes does not become a
    dependency, even if the header is on disk already. -/
theorem C51_unbuilt_not_followed :
    (update { world with built := fun _ => false } 2 20 [job] [] before).map (·.deps.fileDeps) = some [] ∧
    (update world 2 20 [job] [] before).map (·.deps.fileDeps) =
      some [cs "/inc/sys.h", cs "/inc/loop.h", cs "/inc/sys.h"] := by
  refine ⟨?_, ?_⟩ <;> decide +kernel

set_option maxRecDepth 100000 in
/-- **C51 finding.** A dependency that would close a cycle is left out without notice. -/
theorem C51_cycle_dropped :
    (update { world with leadsTo := fun a b => a == 3 && b == 2 } 2 20 [genJob] [] before).map (·.deps.scanned) =
      some [] ∧
    Found { world with leadsTo := fun a b => a == 3 && b == 2 } genJob (.art genH) := by
  refine ⟨by decide +kernel, _, ⟨[], cs "gen.h"⟩, .start, by decide, by decide +kernel⟩

end Verif.Includes
