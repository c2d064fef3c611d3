/-
Reading project files: src/lib/corelib/loader/itemreaderastvisitor.cpp,
src/lib/corelib/loader/itemreadervisitorstate.cpp and the parts of src/lib/corelib/language/item.cpp
they use.

Simplifications: the parser is left out, a file is the item in it. What a binding says is a number. The
properties of an item that are items themselves (made by bindings such as `cpp.defines`) are given by
their leaves: a path of names and the values there. Properties items are modelled in Verif.Eval and left
out here, so are ids, locations, the order in which several errors in one item are found among different
properties, and deprecated properties. All files are read in one thread.
-/

namespace Verif.Read

abbrev Name := String
abbrev File := String
abbrev Path := List Name

/-- `PropertyDeclaration`. -/
structure Decl where
  type : Nat
  readOnly : Bool
  deriving DecidableEq, Repr

/-- What a value says: the code of a binding; nothing, for a declaration without one; the default value
of a property of a built-in item. -/
inductive Src
  | code (c : Nat)
  | empty
  | default (n : Name)
  deriving DecidableEq, Repr

mutual
/-- `UiObjectDefinition`: the name of the type and the members. -/
inductive Obj
  | mk (type : Path) (members : Members)
/-- `UiPublicMember`, `UiScriptBinding`, `UiObjectDefinition`. -/
inductive Members
  | nil
  | decl (n : Name) (d : Decl) (rhs : Option Nat) (more : Members)
  | bind (p : Path) (c : Nat) (more : Members)
  | child (o : Obj) (more : Members)
end

/-- The values of the properties: the value in the item itself, the one in its base item
(`JSSourceValue::baseValue`) and so on. -/
abbrev Props := List (Path × List Src)

inductive Item
  | mk (kind : Name) (decls : List (Name × Decl)) (props : Props) (children : List Item)

def Item.kind : Item → Name
  | .mk k _ _ _ => k

def Item.decls : Item → List (Name × Decl)
  | .mk _ d _ _ => d

def Item.props : Item → Props
  | .mk _ _ p _ => p

def Item.children : Item → List Item
  | .mk _ _ _ c => c

inductive Err
  | loop
  | cannotOpen
  | invalidItem
  | unexpectedType
  | duplicate
  | nonItem
  | readOnly
  | childType
  | fuel
  deriving DecidableEq, Repr

/-- The files, the built-in items and what type names mean in a file. -/
structure World where
  /-- the item in the file -/
  content : File → Option Obj
  /-- `ASTImportsHandler::typeNameFileMap` -/
  typeFile : File → Path → Option File
  /-- `BuiltinDeclarations::typeForName` -/
  builtin : Name → Option Name
  /-- `ItemDeclaration::properties` -/
  builtins : Name → List (Name × Decl)
  /-- `ItemDeclaration::isChildTypeAllowed` -/
  allowed : Name → Name → Bool

/-! ### Properties -/

/-- The values at a path. -/
def get (l : Props) (p : Path) : List Src :=
  match l with
  | [] => []
  | (q, v) :: l => if q = p then v else get l p

/-- There is a value at the path or below it: `hasOwnProperty`, item.cpp 136-140. -/
def hasOwn (l : Props) (p : Path) : Bool := l.any fun e => p.isPrefixOf e.1

/-- There is a value above the path. -/
def valueAbove (l : Props) (p : Path) : Bool := l.any fun e => e.1.isPrefixOf p && e.1 != p

/-- `QMap::insert` for declarations. -/
def insertDecl (l : List (Name × Decl)) (n : Name) (d : Decl) : List (Name × Decl) :=
  l.filter (fun e => e.1 ≠ n) ++ [(n, d)]

/-- An item while its members are read. -/
structure Own where
  decls : List (Name × Decl) := []
  props : Props := []
  children : List Item := []

/-- `visit(UiPublicMember)`, itemreaderastvisitor.cpp 207-242. Without a value, there is no check for
duplicates, and what there is already is replaced. -/
def addDecl (own : Own) (n : Name) (d : Decl) (rhs : Option Nat) : Except Err Own :=
  let decls := insertDecl own.decls n d
  match rhs with
  | some c =>
    if hasOwn own.props [n] then .error .duplicate
    else .ok { own with decls := decls, props := own.props ++ [([n], [.code c])] }
  | none =>
    .ok { own with
      decls := decls
      props := own.props.filter (fun e => ![n].isPrefixOf e.1) ++ [([n], [.empty])] }

/-- `visit(UiScriptBinding)`, itemreaderastvisitor.cpp 244-280, with `targetItemForBinding`, 316-337, and
`checkDuplicateBinding`, 197-205. -/
def addBinding (own : Own) (p : Path) (c : Nat) : Except Err Own :=
  if valueAbove own.props p then .error .nonItem
  else if hasOwn own.props p then .error .duplicate
  else .ok { own with props := own.props ++ [(p, [.code c])] }

/-! ### Inheritance -/

/-- The properties in `inheritItem`, itemreaderastvisitor.cpp 359-386, for one value of the base item. A
value in the derived item takes the place of an item in the base item. -/
def inheritProp (d : Props) (p : Path) (v : List Src) : Except Err Props :=
  if d.any (fun e => e.1 = p) then .ok (d.map fun e => if e.1 = p then (e.1, e.2 ++ v) else e)
  else if valueAbove d p then .ok d
  else if hasOwn d p then .error .nonItem
  else .ok (d ++ [(p, v)])

def inheritProps (d : Props) : Props → Except Err Props
  | [] => .ok d
  | (p, v) :: l =>
    match inheritProp d p v with
    | .error e => .error e
    | .ok d' => inheritProps d' l

/-- The declarations in `inheritItem`, itemreaderastvisitor.cpp 347-354. -/
def inheritDecls (own : Own) : List (Name × Decl) → Except Err (List (Name × Decl))
  | [] => .ok own.decls
  | (n, d) :: l =>
    if d.readOnly && hasOwn own.props [n] then .error .readOnly
    else
      match inheritDecls own l with
      | .error e => .error e
      | .ok r => .ok (insertDecl r n d)

/-- `inheritItem`, itemreaderastvisitor.cpp 339-387. -/
def inherit (own : Own) (base : Item) : Except Err Item :=
  match inheritDecls own base.decls with
  | .error e => .error e
  | .ok decls =>
    match inheritProps own.props base.props with
    | .error e => .error e
    | .ok props => .ok (.mk base.kind decls props (base.children ++ own.children))

/-- `setupForBuiltinType`, item.cpp 343-366. -/
def setupBuiltin (kind : Name) (own : Own) : List (Name × Decl) → Own
  | [] => own
  | (n, d) :: l =>
    let own := setupBuiltin kind own l
    { own with
      decls := insertDecl own.decls n d
      props := if hasOwn own.props [n] then own.props else own.props ++ [([n], [.default n])] }

/-! ### Reading -/

/-- Inheritance resolving, part 1, itemreaderastvisitor.cpp 114-146: the base item or the built-in
type. -/
def baseOf (w : World) (rf : File → Except Err Item) (f : File) (type : Path) : Except Err (Item ⊕ Name) :=
  match w.typeFile f type with
  | some g =>
    match rf g with
    | .error e => .error e
    | .ok i => .ok (.inl i)
  | none =>
    match type with
    | [n] =>
      match w.builtin n with
      | some k => .ok (.inr k)
      | none => .error .unexpectedType
    | _ => .error .invalidItem

/-- Inheritance resolving, part 2, itemreaderastvisitor.cpp 173-192. -/
def finish (w : World) (own : Own) : Item ⊕ Name → Except Err Item
  | .inl base => inherit own base
  | .inr k =>
    let own := setupBuiltin k own (w.builtins k)
    .ok (.mk k own.decls own.props own.children)

mutual
/-- `visit(UiObjectDefinition)`, itemreaderastvisitor.cpp 101-195; `rf` reads other files. -/
def readObj (w : World) (rf : File → Except Err Item) (f : File) : Obj → Except Err Item
  | .mk type ms =>
    match baseOf w rf f type with
    | .error e => .error e
    | .ok b =>
      match readMembers w rf f {} ms with
      | .error e => .error e
      | .ok own => finish w own b
/-- The members one after the other. -/
def readMembers (w : World) (rf : File → Except Err Item) (f : File) (own : Own) : Members → Except Err Own
  | .nil => .ok own
  | .decl n d rhs ms =>
    match addDecl own n d rhs with
    | .error e => .error e
    | .ok own => readMembers w rf f own ms
  | .bind p c ms =>
    match addBinding own p c with
    | .error e => .error e
    | .ok own => readMembers w rf f own ms
  | .child o ms =>
    match readObj w rf f o with
    | .error e => .error e
    | .ok i => readMembers w rf f { own with children := own.children ++ [i] } ms
end

mutual
/-- `doCheckItemTypes`, itemreaderastvisitor.cpp 399-409. -/
def typesOk (w : World) : Item → Bool
  | .mk k _ _ cs => typesOkAll w k cs
def typesOkAll (w : World) (k : Name) : List Item → Bool
  | [] => true
  | c :: cs => w.allowed k c.kind && typesOk w c && typesOkAll w k cs
end

/-- `ItemReaderVisitorState::readFile`, itemreadervisitorstate.cpp 68-124; `stack`: the files that are
being processed. -/
def readFile (w : World) : Nat → List File → File → Except Err Item
  | 0, _, _ => .error .fuel
  | n + 1, stack, f =>
    match w.content f with
    | none => .error .cannotOpen
    | some o =>
      if f ∈ stack then .error .loop
      else
        match readObj w (readFile w n (f :: stack)) f o with
        | .error e => .error e
        | .ok i => if typesOk w i then .ok i else .error .childType

end Verif.Read
