import Verif.JsImport.Model

/-! What importing a JavaScript file should do. -/
namespace Verif.JsImport

/-- A name is declared by a sequence of source elements: by a function, by a variable wherever it is
outside of functions, or by a constant outside of blocks (`top`). -/
inductive Declares : Bool → Node → Str → Prop where
  | fdecl {t n b nx} : Declares t (.fdecl n b nx) n
  | var {t n i nx} : Declares t (.var false n i nx) n
  | const {n i nx} : Declares true (.var true n i nx) n
  | block {t x nx n} : Declares false x n → Declares t (.block x nx) n
  | fdecl_next {t m b nx n} : Declares t nx n → Declares t (.fdecl m b nx) n
  | fexpr_next {t b nx n} : Declares t nx n → Declares t (.fexpr b nx) n
  | var_next {t l m i nx n} : Declares t nx n → Declares t (.var l m i nx) n
  | block_next {t x nx n} : Declares t nx n → Declares t (.block x nx) n

/-- The number of function expressions with a body that are not in the initializer of a variable or in
a function. -/
def loose : Node → Nat
  | .nil => 0
  | .fdecl _ _ nx => loose nx
  | .fexpr x nx => (if x = .nil then 0 else 1) + loose nx
  | .var _ _ _ nx => loose nx
  | .block x nx => loose x + loose nx

/-- There is no constant in a block. -/
def NoBlockConst : Bool → Node → Prop
  | _, .nil => True
  | t, .fdecl _ _ nx => NoBlockConst t nx
  | t, .fexpr _ nx => NoBlockConst t nx
  | t, .var lex _ _ nx => (lex = true → t = true) ∧ NoBlockConst t nx
  | t, .block x nx => NoBlockConst false x ∧ NoBlockConst t nx

/-- No file catches errors of another one. -/
def NoCatch (w : World) : Prop := ∀ c ∈ w.files, ∀ p b, .require p b ∈ c.steps → b = false

/-- The files do not require each other in a circle: each requires files of smaller rank only. -/
def Ranked (w : World) (rank : Nat → Nat) : Prop :=
  ∀ f c, w.files[f]? = some c → ∀ p b, Step.require p b ∈ c.steps → rank (w.resolve c.dir p) < rank f

/-- Every call of require takes the path relative to the directory of the file with the call. -/
def Resolved (w : World) (r : Nat × Str × Nat) : Prop :=
  ∃ c, w.files[r.1]? = some c ∧ r.2.2 = w.resolve c.dir r.2.1

end Verif.JsImport
