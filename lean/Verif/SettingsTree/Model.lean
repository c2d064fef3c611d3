/-!
# The settings as an editable tree

Model of `src/lib/corelib/tools/settingsmodel.cpp`, which shows the settings as
a tree and lets the user add, remove and change keys before saving them.

Simplifications.  The settings of one scope are given as a tree in which every
name occurs once below its parent, which is what `Settings::directChildren`
makes of them.  The conversion between values and their text is a parameter.
Indexes are lists of row numbers; an index that leads nowhere has no effect.
The signals to the views are left out.
-/

namespace Verif.SettingsTree

/-- A name or a text, character by character. -/
abbrev Str := List Char

/-! ## The stored settings -/

/-- The settings below some key, sorted by name: a name may have a value, and
further names below it. -/
inductive Trie (V : Type) where
  | nil
  | cons (name : Str) (value : Option V) (sub rest : Trie V)

/-- The parts of a key: `Settings::internalRepresentation` (settings.cpp 227-231)
turns dots into slashes, at which QSettings separates the parts; it ignores
slashes without a name between them. -/
def partsFrom : Str → Str → List Str
  | w, [] => if w = [] then [] else [w]
  | w, c :: r =>
    if c = '.' ∨ c = '/' then (if w = [] then partsFrom [] r else w :: partsFrom [] r)
    else partsFrom (w ++ [c]) r

/-- The parts of a key. -/
def parts (s : Str) : List Str := partsFrom [] s

/-- The stored values by the parts of their keys. -/
abbrev Store (V : Type) := List Str → Option V

/-- `Settings::setValue` (settings.cpp 175-183): keys that start with the name of
the special profile are refused. -/
def setValue {V : Type} (st : Store V) (key : Str) (v : V) : Option (Store V) :=
  if "profiles.none".toList.isPrefixOf key then none
  else some (fun p => if p = parts key then some v else st p)

/-! ## The shown tree -/

/-- The children of a node: name, value, `isFromSettings` and children of each
(settingsmodel.cpp 60-73). -/
inductive Forest where
  | nil
  | cons (name value : Str) (stored : Bool) (sub rest : Forest)
deriving DecidableEq, Repr

/-- The names of some siblings. -/
def names : Forest → List Str
  | .nil => []
  | .cons n _ _ _ r => n :: names r

/-- The loop of `Node::uniqueChildName` (settingsmodel.cpp 75-90).  The first
argument bounds the number of rounds. -/
def uniqueLoop : Nat → List Str → Str → Str
  | 0, _, n => n
  | k + 1, ns, n => if n ∈ ns then uniqueLoop k ns (n ++ ['_']) else n

/-- `Node::uniqueChildName` (settingsmodel.cpp 75-90). -/
def uniqueChildName (f : Forest) : Str := uniqueLoop (names f).length (names f) "newkey".toList

/-- A new child behind the others, as `addNewKey` and `createNode` make it
(settingsmodel.cpp 161-173, 338-345). -/
def snoc : Forest → Str → Forest
  | .nil, n => .cons n [] true .nil .nil
  | .cons m v b s r, n => .cons m v b s (snoc r n)

/-- `addNodeFromSettings` for all children of a node (settingsmodel.cpp 347-358).
`rep` is `settingsValueToRepresentation`, also of a value that does not
exist. -/
def read {V : Type} (rep : Option V → Str) : Trie V → Forest
  | .nil => .nil
  | .cons n v s r => .cons n (rep v) true (read rep s) (read rep r)

/-- Changes the first node of some siblings that has a certain name; if there is
none, it is added at the end (settingsmodel.cpp 363-371). -/
def update (n : Str) (g : Str → Bool → Forest → Str × Bool × Forest) : Forest → Forest
  | .nil => .cons n (g [] true .nil).1 (g [] true .nil).2.1 (g [] true .nil).2.2 .nil
  | .cons m v b s r =>
    if m = n then .cons m (g v b s).1 (g v b s).2.1 (g v b s).2.2 r
    else .cons m v b s (update n g r)

/-- `addNode` (settingsmodel.cpp 360-378). -/
def addNode : List Str → Str → Forest → Forest
  | [], _, f => f
  | n :: rest, v, f =>
    update n (fun w b s =>
      match rest with
      | [] => (v, false, s)
      | _ :: _ => (w, b, addNode rest v s)) f

/-- `QString::split('.', Qt::SkipEmptyParts)`. -/
def splitDots : Str → Str → List Str
  | w, [] => if w = [] then [] else [w]
  | w, c :: r =>
    if c = '.' then (if w = [] then splitDots [] r else w :: splitDots [] r)
    else splitDots (w ++ [c]) r

/-- The loop over the additional properties in `readSettings` (settingsmodel.cpp
330-334).  A key without a name in it makes `front()` access an empty list,
for which there is no result. -/
def addAll : List (Str × Str) → Forest → Option Forest
  | [], f => some f
  | (k, v) :: r, f =>
    match splitDots [] k with
    | [] => none
    | n :: ns => addAll r (addNode (n :: ns) v f)

/-- `readSettings` (settingsmodel.cpp 323-336). -/
def readSettings {V : Type} (rep : Option V → Str) (t : Trie V) (add : List (Str × Str)) :
    Option Forest := addAll add (read rep t)

/-! ## Editing -/

/-- A node: name, value, `isFromSettings` and children. -/
abbrev Row := Str × Str × Bool × Forest

/-- The node in a row. -/
def rowAt : Nat → Forest → Option Row
  | _, .nil => none
  | 0, .cons n v b s _ => some (n, v, b, s)
  | i + 1, .cons _ _ _ _ r => rowAt i r

/-- Changes the node in a row. -/
def modRow (g : Row → Row) : Nat → Forest → Forest
  | _, .nil => .nil
  | 0, .cons n v b s r =>
    .cons (g (n, v, b, s)).1 (g (n, v, b, s)).2.1 (g (n, v, b, s)).2.2.1 (g (n, v, b, s)).2.2.2 r
  | i + 1, .cons n v b s r => .cons n v b s (modRow g i r)

/-- Removes the node in a row. -/
def dropRow : Nat → Forest → Forest
  | _, .nil => .nil
  | 0, .cons _ _ _ _ r => r
  | i + 1, .cons n v b s r => .cons n v b s (dropRow i r)

/-- The children of the node with an index; the empty index is the root. -/
def subAt : List Nat → Forest → Option Forest
  | [], f => some f
  | i :: ix, f => match rowAt i f with
    | none => none
    | some (_, _, _, s) => subAt ix s

/-- Changes the children of the node with an index. -/
def modSub (g : Forest → Forest) : List Nat → Forest → Forest
  | [], f => g f
  | i :: ix, f => modRow (fun x => (x.1, x.2.1, x.2.2.1, modSub g ix x.2.2.2)) i f

/-- The name of the node with an index. -/
def nameAt (par : List Nat) (f : Forest) : Option Str :=
  match par.reverse with
  | [] => none
  | i :: up => match subAt up.reverse f with
    | none => none
    | some c => (rowAt i c).map (·.1)

/-- What the user can do: a new key below a node, and removing, renaming and
setting the value of the node in a row below a node. -/
inductive Op where
  | add (par : List Nat)
  | remove (par : List Nat) (row : Nat)
  | rename (par : List Nat) (row : Nat) (s : Str)
  | setVal (par : List Nat) (row : Nat) (s : Str)

/-- The shown tree, and whether it was changed. -/
structure St where
  tree : Forest
  dirty : Bool
deriving DecidableEq, Repr

/-- The condition on a new name in `setData` (settingsmodel.cpp 283-287). -/
def nameOk (f : Forest) (par : List Nat) (c : Forest) (s : Str) : Bool :=
  s ≠ [] && !(names c).contains s &&
    (par.length != 1 || nameAt par f != some "profiles".toList || s != "none".toList)

/-- `addNewKey`, `removeKey` and `setData` for names and values
(settingsmodel.cpp 161-186, 274-300). -/
def step (s : St) : Op → St
  | .add par => match subAt par s.tree with
    | none => s
    | some _ => { tree := modSub (fun c => snoc c (uniqueChildName c)) par s.tree, dirty := true }
  | .remove par i => match subAt par s.tree with
    | none => s
    | some c => match rowAt i c with
      | none => s
      | some _ => { tree := modSub (dropRow i) par s.tree, dirty := true }
  | .rename par i t => match subAt par s.tree with
    | none => s
    | some c => match rowAt i c with
      | none => s
      | some _ =>
        if nameOk s.tree par c t then
          { tree := modSub (modRow (fun x => (t, x.2)) i) par s.tree, dirty := true }
        else s
  | .setVal par i t => match subAt par s.tree with
    | none => s
    | some c => match rowAt i c with
      | none => s
      | some (_, v, _, _) =>
        if t ≠ v then
          { tree := modSub (modRow (fun x => (x.1, t, x.2.2)) i) par s.tree, dirty := true }
        else s

/-- Any number of edits. -/
def run (s : St) (ops : List Op) : St := ops.foldl step s

/-! ## Saving -/

/-- `doSave` for the children of a node (settingsmodel.cpp 380-390): the keys and
the texts of the values, in order. -/
def writes (pre : Str) : Forest → List (Str × Str)
  | .nil => []
  | .cons n v _ .nil r => (pre ++ n, v) :: writes pre r
  | .cons n _ _ s r => writes (pre ++ n ++ ['.']) s ++ writes pre r

/-- `doSave` for the root, which has neither a name nor a value. -/
def rootWrites : Forest → List (Str × Str)
  | .nil => [([], [])]
  | f => writes ['.'] f

/-- The calls of `Settings::setValue`.  A call with an empty key has no effect
in QSettings.  `unrep` is `representationToSettingsValue`. -/
def store {V : Type} (unrep : Str → V) : List (Str × Str) → Store V → Option (Store V)
  | [], st => some st
  | (k, v) :: r, st =>
    if k = [] then store unrep r st
    else match setValue st k (unrep v) with
      | none => none
      | some st' => store unrep r st'

/-- `save` (settingsmodel.cpp 142-149). -/
def save {V : Type} (unrep : Str → V) (s : St) (st : Store V) : Option (Store V) :=
  if s.dirty then store unrep (rootWrites s.tree) (fun _ => none) else some st

end Verif.SettingsTree
