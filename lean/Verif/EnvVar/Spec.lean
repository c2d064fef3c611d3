import Verif.EnvVar.Model

/-! # The entries of a list variable -/

namespace Verif.EnvVar.Spec

open Verif.EnvVar

/-- The texts between separators -/
def split (sep : Char) : Str → List Str
  | [] => [[]]
  | c :: s =>
    if c = sep then [] :: split sep s
    else match split sep s with
      | [] => [[c]]
      | w :: ws => (c :: w) :: ws

/-- What programs see in the variable: no entries, if it is empty or not set -/
def entries (sep : Char) (value : Option Str) : List Str :=
  match value with
  | none => []
  | some [] => []
  | some s => split sep s

/-- With separators of Windows, if asked for -/
def converted (convert : Bool) (v : Str) : Str :=
  if convert then v.map (fun c => if c = '/' then '\\' else c) else v

/-- What a call adds before and after the entries -/
def step (sep : Char) (convert : Bool) (l : List Str) : Op → List Str
  | .prepend v => split sep (converted convert v) ++ l
  | .append v => l ++ split sep (converted convert v)

/-- Something that can be added: not empty and not beginning with the separator -/
def Proper (sep : Char) (v : Str) : Prop := v ≠ [] ∧ v.head? ≠ some sep

def Op.Proper (sep : Char) (convert : Bool) : Op → Prop
  | .prepend v => Spec.Proper sep (converted convert v)
  | .append v => Spec.Proper sep (converted convert v)

end Verif.EnvVar.Spec
