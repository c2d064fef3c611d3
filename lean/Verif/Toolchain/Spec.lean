import Verif.Toolchain.Model
/-
What users rely on: the list of toolchains that qbs.toolchain and profiles get.
-/

namespace Verif.Toolchain.Spec

/-- A toolchain that is a special case of another one. -/
inductive Implies : Str → Str → Prop
  | xcodeClang : Implies xcode clang
  | clangLlvm : Implies clang llvm
  | llvmGcc : Implies llvm gcc
  | mingwGcc : Implies mingw gcc
  | emscriptenGcc : Implies emscripten gcc
  | clangClMsvc : Implies clangCl msvc

/-- What a list of names stands for: the names themselves, whatever their case, and
everything they are special cases of. -/
inductive Has (lower : Str → Str) (l : List Str) : Str → Prop
  | given (x : Str) : x ∈ l → Has lower l (lower x)
  | implied (a b : Str) : Has lower l a → Implies a b → Has lower l b

/-- A name qbs knows. -/
def Known (a : Str) : Prop :=
  a = xcode ∨ a = clang ∨ a = llvm ∨ a = mingw ∨ a = gcc ∨ a = clangCl ∨ a = msvc ∨
    a = emscripten

/-- `a` comes before `b` in the list for the first time. -/
def Before (l : List Str) (a b : Str) : Prop :=
  ∃ l₁ l₂, l = l₁ ++ a :: l₂ ∧ a ∉ l₁ ∧ b ∉ l₁ ∧ a ≠ b ∧ b ∈ l₂

/-- What is asked of the conversion to lower case. -/
structure LowerOk (lower : Str → Str) : Prop where
  known : ∀ k, Known k → lower k = k
  twice : ∀ x, lower (lower x) = lower x

end Verif.Toolchain.Spec
