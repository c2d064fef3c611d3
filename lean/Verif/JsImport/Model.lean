/-
Importing JavaScript files.

Sources modelled:
  src/lib/corelib/language/scriptimporter.cpp 53-117 (which identifiers are exported), 122-155 (importing
    the source code)
  src/lib/corelib/language/scriptengine.cpp 465-483 (importing a file), 635-719 (the require function)
  src/lib/corelib/parser/qmljsast.cpp 478-485, 761-770 (the order in which the visitor is called)

Simplifications: programs are reduced to their declarations, blocks and function expressions; the
objects that are copied for each importing context are left out, as are named extensions.  That a
function body sees its functions, its variables and its own constants is JavaScript, not qbs.
-/
namespace Verif.JsImport

abbrev Str := List Char

/-! The identifiers of a file. -/

/-- A sequence of source elements, in the order of the text.  Each constructor has the rest of the
sequence as its last argument. -/
inductive Node where
  | nil
  /-- A function declaration. -/
  | fdecl (name : Str) (body : Node) (next : Node)
  /-- A function expression in a statement, but not in the initializer of a variable. -/
  | fexpr (body : Node) (next : Node)
  /-- A variable, or a constant if `lex`, with the function expressions in the initializer. -/
  | var (lex : Bool) (name : Str) (init : Node) (next : Node)
  /-- A block or a statement that consists of statements. -/
  | block (body : Node) (next : Node)
  deriving DecidableEq, Repr

def Node.isNil : Node → Bool
  | .nil => true
  | _ => false

/-- The visitor (scriptimporter.cpp 69-100): from the value of `m_barrier`, its new value and the
identifiers that are added.  A list of source elements, which an empty function body does not have,
resets `m_barrier` at its end, also if it was not entered (qmljsast.cpp 761-770). -/
def visit : Node → Bool → Bool × List Str
  | .nil, b => (b, [])
  | .fdecl n _ nx, b => ((visit nx b).1, n :: (visit nx b).2)
  | .var _ n _ nx, b => ((visit nx b).1, n :: (visit nx b).2)
  | .block x nx, b => ((visit nx (visit x b).1).1, (visit x b).2 ++ (visit nx (visit x b).1).2)
  | .fexpr x nx, b =>
    if x.isNil then visit nx b
    else if b then visit nx false
    else ((visit nx false).1, (visit x true).2 ++ (visit nx false).2)

/-- `IdentifierExtractor::start` (scriptimporter.cpp 56-67): the identifiers in the object that is
returned at the end of the file. -/
def exported (p : Node) : List Str := (visit p true).2

/-- The names that JavaScript declares in the scope of the program; constants are only visible in
their blocks. -/
def declares (top : Bool) : Node → List Str
  | .nil => []
  | .fdecl n _ nx => n :: declares top nx
  | .var lex n _ nx => if lex && !top then declares top nx else n :: declares top nx
  | .block x nx => declares false x ++ declares top nx
  | .fexpr _ nx => declares top nx

inductive Outcome where
  | ok (names : List Str) | referenceError (name : Str)
  deriving DecidableEq, Repr

/-- `importSourceCode` (scriptimporter.cpp 122-148): the object with the identifiers is evaluated in
the scope of the program.  `globals` are the names that are known anyway. -/
def importSource (globals : List Str) (p : Node) : Outcome :=
  match (exported p).find? (fun n => n ∉ declares true p ∧ n ∉ globals) with
  | some n => .referenceError n
  | none => .ok (exported p)

/-! Files that require each other. -/

/-- What a file does while it is imported: it requires another file, where `caught` says that an error
is caught, or it throws an error. -/
inductive Step where
  | require (path : Str) (caught : Bool) | throw
  deriving DecidableEq, Repr

structure File where
  dir : Nat
  steps : List Step
  deriving DecidableEq, Repr

/-- The files, and `FileInfo::resolvePath` for a directory and a path. -/
structure World where
  files : List File
  resolve : Nat → Str → Nat

/-- The state of the engine: the cache of files, the stack of directories, and as records the files
that were evaluated and the calls of require with the file that was taken. -/
structure St where
  cache : List Nat := []
  stack : List Nat := []
  starts : List Nat := []
  reqs : List (Nat × Str × Nat) := []
  deriving DecidableEq, Repr

inductive Out where
  | ok | error | overflow
  deriving DecidableEq, Repr

/-- Evaluating a file; the calls of `js_require` (scriptengine.cpp 694-719) for paths. -/
def runSteps (w : World) (imp : St → Nat → Out × St) (me : Nat) : St → List Step → Out × St
  | s, [] => (.ok, s)
  | s, .throw :: _ => (.error, s)
  | s, .require r caught :: l =>
    match s.stack with
    | [] => (.error, s)
    | d :: _ =>
      match imp { s with reqs := s.reqs ++ [(me, r, w.resolve d r)] } (w.resolve d r) with
      | (.ok, s') => runSteps w imp me s' l
      | (.error, s') => if caught then runSteps w imp me s' l else (.error, s')
      | (.overflow, s') => (.overflow, s')

/-- `ScriptEngine::importFile` (scriptengine.cpp 465-483).  The number is the depth of the stack. -/
def importFile (w : World) : Nat → St → Nat → Out × St
  | 0, s, _ => (.overflow, s)
  | k + 1, s, f =>
    if f ∈ s.cache then (.ok, s)
    else
      match w.files[f]? with
      | none => (.error, s)
      | some c =>
        match runSteps w (importFile w k) f
            { s with stack := c.dir :: s.stack, starts := s.starts ++ [f] } c.steps with
        | (.ok, s') => (.ok, { s' with stack := s'.stack.tail, cache := f :: s'.cache })
        | r => r

end Verif.JsImport
