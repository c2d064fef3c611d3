import Verif.Read.Model
/-
What reading a project file should give.
-/

namespace Verif.Read

def Obj.type : Obj → Path
  | .mk t _ => t

def Obj.members : Obj → Members
  | .mk _ ms => ms

/-- What the members of an item set, in their order. -/
def Members.settings : Members → List (Path × Src)
  | .nil => []
  | .decl n _ (some c) ms => ([n], .code c) :: ms.settings
  | .decl n _ none ms => ([n], .empty) :: ms.settings
  | .bind p c ms => (p, .code c) :: ms.settings
  | .child _ ms => ms.settings

/-- What the item sets a property to; the last one, if there are several. -/
def Obj.setting (o : Obj) (p : Path) : Option Src :=
  ((o.members.settings.filter (fun e => e.1 = p)).getLast?).map (·.2)

/-- The declarations in an item. -/
def Members.decls : Members → List (Name × Decl)
  | .nil => []
  | .decl n d _ ms => (n, d) :: ms.decls
  | .bind _ _ ms => ms.decls
  | .child _ ms => ms.decls

def Obj.declares (o : Obj) (n : Name) : Option Decl :=
  ((o.members.decls.filter (fun e => e.1 = n)).getLast?).map (·.2)

/-- The items in an item. -/
def Members.objs : Members → List Obj
  | .nil => []
  | .decl _ _ _ ms => ms.objs
  | .bind _ _ ms => ms.objs
  | .child o ms => o :: ms.objs

/-- The item `o` in the file `f` and the items it is derived from, up to one of the built-in type `k`. -/
inductive Chain (w : World) : File → Obj → List (File × Obj) → Name → Prop
  | builtin (f : File) (n k : Name) (ms : Members) (h : w.typeFile f [n] = none)
      (hk : w.builtin n = some k) : Chain w f (.mk [n] ms) [(f, .mk [n] ms)] k
  | derived (f g : File) (type : Path) (ms : Members) (o : Obj) (l : List (File × Obj)) (k : Name)
      (h : w.typeFile f type = some g) (hg : w.content g = some o) (hc : Chain w g o l k) :
      Chain w f (.mk type ms) ((f, .mk type ms) :: l) k

/-- A part of a path, without the last name or more. -/
def Above (q p : Path) : Prop := q ≠ p ∧ ∃ r, p = q ++ r

/-- No one in the chain sets something above the path, where the path goes through. -/
def NothingAbove (w : World) (l : List (File × Obj)) (k : Name) (p : Path) : Prop :=
  (∀ x ∈ l, ∀ e ∈ x.2.members.settings, ¬ Above e.1 p) ∧ ∀ e ∈ w.builtins k, ¬ Above [e.1] p

/-- The default value of a property, if the last item of the chain does not set it. -/
def defaults (w : World) (l : List (File × Obj)) (k : Name) : Path → List Src
  | [n] =>
    if (w.builtins k).any (fun e => e.1 = n) ∧
        ¬ (l.getLast?.any fun x => x.2.members.settings.any fun e => e.1.head? = some n) = true
    then [.default n] else []
  | _ => []

/-- The item `o` in the file `f` is read, with the result `i`. -/
def ReadsObj (w : World) (f : File) (o : Obj) (i : Item) : Prop :=
  ∃ n stack, readObj w (readFile w n stack) f o = .ok i

/-- The file is read, with the result `i`. -/
def Reads (w : World) (f : File) (i : Item) : Prop := ∃ n, readFile w n [] f = .ok i

/-- Reading the file is given up with an error. -/
def Fails (w : World) (f : File) (e : Err) : Prop := ∃ n, readFile w n [] f = .error e ∧ e ≠ .fuel

/-- The item `p` is the item `i` or somewhere in it. -/
inductive Inside (i : Item) : Item → Prop
  | self : Inside i i
  | step (p c : Item) (h : Inside i p) (hc : c ∈ p.children) : Inside i c

/-- Two lists of the same length, element by element. -/
inductive Matched {α β : Type} (R : α → β → Prop) : List α → List β → Prop
  | nil : Matched R [] []
  | cons (a : α) (b : β) (as : List α) (bs : List β) (h : R a b) (t : Matched R as bs) :
      Matched R (a :: as) (b :: bs)

/-- The item sets the property or something in it. -/
def Obj.sets (o : Obj) (n : Name) : Prop := ∃ e ∈ o.members.settings, e.1.head? = some n

mutual
/-- The types of an item and the items in it. -/
def Obj.types : Obj → List Path
  | .mk t ms => t :: ms.types
def Members.types : Members → List Path
  | .nil => []
  | .decl _ _ _ ms => ms.types
  | .bind _ _ ms => ms.types
  | .child o ms => o.types ++ ms.types
end

/-- The file `f` has an item whose type is defined in the file `g`. -/
def Uses (w : World) (f g : File) : Prop :=
  ∃ o, w.content f = some o ∧ ∃ t ∈ o.types, w.typeFile f t = some g

/-- In several steps. -/
inductive Needs (w : World) : File → File → Prop
  | one (f g : File) (h : Uses w f g) : Needs w f g
  | more (f g k : File) (h : Uses w f g) (r : Needs w g k) : Needs w f k

end Verif.Read
