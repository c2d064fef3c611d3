import Verif.Toolchain.Props
/-
Concrete cases for the hypotheses of C80.
-/

namespace Verif.Toolchain

open Spec

def lowerAscii (s : Str) : Str := s.map Char.toLower

theorem lowerAscii_ok : LowerOk lowerAscii where
  known := by
    intro k hk
    rcases hk with rfl | rfl | rfl | rfl | rfl | rfl | rfl | rfl <;> decide
  twice := by
    intro x
    simp only [lowerAscii, List.map_map]
    apply List.map_congr_left
    intro c _
    simp only [Function.comp]
    unfold Char.toLower
    split
    · rename_i h
      split
      · rename_i h'
        grind
      · rfl
    · rfl

/-- A list with a custom name, upper case and an implied name before its cause. -/
example : canonical lowerAscii
    ["gcc".toList, "MyCompiler".toList, "Xcode".toList, "mycompiler".toList, "other".toList] =
    ["mycompiler".toList, "other".toList, xcode, clang, llvm, gcc] := by decide +kernel

example : canonical lowerAscii ["mingw".toList] = canonical lowerAscii [gcc, "MINGW".toList, mingw]
    ∧ canonical lowerAscii [mingw] = [mingw, gcc] := by decide +kernel

example : emscripten ∈ canonical lowerAscii [emscripten] ∧
    canonical lowerAscii [emscripten] = [gcc, emscripten] := by decide +kernel

example : ¬ Known "mycompiler".toList ∧ ¬ Known "other".toList := by
  simp only [← mem_known]; decide

end Verif.Toolchain
