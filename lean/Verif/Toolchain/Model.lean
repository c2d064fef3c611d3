import Verif.Common.Sort
/-
Canonical lists of toolchains: src/lib/corelib/tools/toolchains.cpp.
Simplification: a toolchain's name is a sequence of characters; QString::toLower is
a parameter (a function from names to names) that leaves the names known to qbs
alone and that does nothing the second time.
-/

namespace Verif.Toolchain

open Verif.Common

abbrev Str := List Char

def xcode : Str := "xcode".toList
def clang : Str := "clang".toList
def llvm : Str := "llvm".toList
def mingw : Str := "mingw".toList
def gcc : Str := "gcc".toList
def clangCl : Str := "clang-cl".toList
def msvc : Str := "msvc".toList
def emscripten : Str := "emscripten".toList

/-- The static list knownToolchains, toolchains.cpp 83-91. -/
def known : List Str := [xcode, clang, llvm, mingw, gcc, clangCl, msvc, emscripten]

/-- canonicalToolchain(const QString &), toolchains.cpp 127-142. The recursive calls
are for constants; they are unfolded here by calling with less fuel, of which four
suffices: xcode, clang, llvm, gcc. -/
def canonicalNameAux (lower : Str → Str) : Nat → Str → List Str
  | 0, _ => []
  | fuel + 1, name =>
    let n := lower name
    n ::
      (if n = xcode then canonicalNameAux lower fuel clang
       else if n = clang then canonicalNameAux lower fuel llvm
       else if n = llvm ∨ n = mingw ∨ n = emscripten then canonicalNameAux lower fuel gcc
       else if n = clangCl then canonicalNameAux lower fuel msvc
       else [])

/-- canonicalToolchain(const QString &), toolchains.cpp 127-142. -/
def canonicalName (lower : Str → Str) (name : Str) : List Str := canonicalNameAux lower 4 name

/-- QStringList::removeDuplicates as used in toolchains.cpp 98: the first of equal
entries stays. -/
def removeDuplicates : List Str → List Str
  | [] => []
  | x :: xs => x :: (removeDuplicates xs).filter (· ≠ x)

/-- knownToolchains.indexOf(a), toolchains.cpp 114. -/
def rank (a : Str) : Nat := known.idxOf a

/-- The loop of toolchains.cpp 102-108: pairs of what stays in the list and of what
was moved to usedKnownToolchains. -/
def takeKnown : List Str → List Str × List Str
  | [] => ([], [])
  | x :: xs =>
    if x ∈ known then ((takeKnown xs).1, x :: (takeKnown xs).2)
    else (x :: (takeKnown xs).1, (takeKnown xs).2)

/-- canonicalToolchain(const QStringList &), toolchains.cpp 81-125. std::sort is
modelled by an insertion sort; the entries are distinct and so are their ranks,
so every correct sort gives the same result. -/
def canonical (lower : Str → Str) (l : List Str) : List Str :=
  let all := removeDuplicates (l.flatMap (canonicalName lower))
  (takeKnown all).1 ++ isort (fun a b => decide (rank a ≤ rank b)) (takeKnown all).2

end Verif.Toolchain
