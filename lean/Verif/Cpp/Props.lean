import Verif.Cpp.Modules
/-!
# C58, C59: theorems
-/
namespace Verif.Cpp

/-- The byte order mark -/
def bom : Str := ['\xef', '\xbb', '\xbf']

/-- **C58.** The scan of a file for dependencies finds exactly the `#include` and `#import` directives, in their order,
    and for each of them whether the name is in quotes and the name: whatever the file contains besides, be it in comments,
    literals, raw strings, other directives or code. -/
theorem C58_found_partial (o : Opts) (hd : o.deps = true) (hw : WordsOk o.reserved) (ls : List Line) (hf : FileOk o.reserved ls) :
    (scanFile o (bytes (fileText ls))).map (·.includes) = some (ls.filterMap Line.included) := by
  obtain ⟨r, h1, h2, -⟩ := found o hd hw ls hf
  rw [h1]
  simp [h2]

/-- **C58.** A byte order mark makes no difference. -/
theorem C58_bom (o : Opts) (content : Str) (h : content.take 3 ≠ bom) : scanFile o (bom ++ content) = scanFile o content := by
  have h1 : stripBom (bom ++ content) = content := by
    unfold stripBom
    rw [if_pos (by simp [bom])]
    simp [bom]
  have h2 : stripBom content = content := by
    unfold stripBom
    exact if_neg h
  unfold scanFile
  rw [h1, h2]

/-- **C58.** The scan of any file comes to an end, whatever is in it. -/
theorem C58_terminates (o : Opts) (content : Str) : ∃ r, scanFile o content = some r := scanFile_total o content

/-- **C59.** The scan of a file for dependencies finds the module it belongs to, which module it provides, whether it is a
    module interface, and the modules and header units it needs, in their order. -/
theorem C59_modules_partial (o : Opts) (hd : o.deps = true) (hw : WordsOk o.reserved) (ls : List Line) (hf : FileOk o.reserved ls) :
    ∃ r, scanFile o (bytes (fileText ls)) = some r ∧
      r.part = (modules o.cppm ls).full ∧ r.provides = (modules o.cppm ls).provides ∧
      r.isInterface = (modules o.cppm ls).isInterface ∧ r.requiresModules = (modules o.cppm ls).needs := by
  obtain ⟨r, h1, -, h3⟩ := found o hd hw ls hf
  exact ⟨r, h1, h3⟩

end Verif.Cpp
