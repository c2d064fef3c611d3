import Verif.Symbols.Model

/-! # The symbols that matter -/

namespace Verif.Symbols.Spec

open Verif.Symbols

/-- A symbol: its name and its type, the first two words of a line (see `C136_words`) -/
def symbol (l : Str) : Str × Option Str := (elem0 l, elem1 l)

def weakTypes : List Str := [['v'], ['V'], ['w'], ['W']]

/-- The symbols that matter to users of the library: all of them, or the ones it defines that are not weak -/
def relevant (strict : Bool) (n : Nm) : List (Str × Option Str) :=
  if strict then n.all.map symbol
  else (n.all.filter (fun l => l ∉ n.undefined_ ∧ ∀ t ∈ weakTypes, (symbol l).2 ≠ some t)).map symbol

/-- When users of the library have to be linked again: after the first build, and when the relevant symbols are not those of the build
before, disregarding builds in which `nm` fails. -/
def relink (strict : Bool) : Option (List (Str × Option Str)) → List (Option Nm) → List Bool
  | _, [] => []
  | last, none :: h => false :: relink strict last h
  | last, some n :: h => decide (last ≠ some (relevant strict n)) :: relink strict (some (relevant strict n)) h

/-- `nm` does not print empty lines, and each line has a type. -/
def Proper (n : Nm) : Prop := ∀ l ∈ n.all, l ≠ [] ∧ l ≠ separator

end Verif.Symbols.Spec
