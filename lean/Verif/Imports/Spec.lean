import Verif.Imports.Model
/-
What type names and scopes should mean.
-/

namespace Verif.Imports

/-- The file for a type in a directory. -/
def World.typeIn (w : World) (n : Name) (d : Dir) : Option File :=
  ((w.comps d).find? (fun e => e.1 = n)).map (·.2)

/-- The first of the directories `imports` in the search paths that has the directory `p`. -/
def World.importDir (w : World) (p : Path) : Option Dir := w.searchDirs.findSome? (fun d => w.sub d p)

/-- The name an import gives to something; none for qbs itself and built-in extensions. -/
def Stmt.name (w : World) (s : Stmt) : Option Name :=
  match s.target with
  | .uri p => if isBase p ∨ (extension w p).isSome then none else s.importId.or p.getLast?
  | .file _ => s.importId

/-- The file with an item that is imported. -/
def Stmt.item (w : World) (s : Stmt) : Option File :=
  match s.target with
  | .uri _ => none
  | .file n => match w.file n with
    | some (.qbs f) => some f
    | _ => none

/-- The directory that is imported. -/
def Stmt.dir (w : World) (s : Stmt) : Option Dir :=
  match s.target with
  | .uri p => w.importDir p
  | .file n => match w.file n with
    | some (.dir d) => some d
    | _ => none

/-- The JavaScript files that are imported. -/
def Stmt.scripts (w : World) (s : Stmt) : List File :=
  match s.target with
  | .uri p => ((w.importDir p).map w.jsFiles).getD []
  | .file n => match w.file n with
    | some (.dir d) => w.jsFiles d
    | some (.js f) => [f]
    | _ => []

/-- The import that gives the name `a`. -/
def named (w : World) (l : List Stmt) (a : Name) : Option Stmt := l.find? (fun s => s.name w = some a)

/-- The file for a type: an imported file; the first one in the search paths and then the directory of
the file itself; the one that qbs has. With two names: in an imported directory. -/
def meaning (w : World) (l : List Stmt) : Path → Option File
  | [n] =>
    (((named w l n).bind fun s => s.item w).or ((w.searchDirs ++ [w.own]).findSome? (w.typeIn n))).or
      ((w.importDir ["qbs", "base"]).bind (w.typeIn n))
  | [a, n] => ((named w l a).bind fun s => s.dir w).bind (w.typeIn n)
  | _ => none

/-- The imports by which something could be found that is a type already. -/
def Known (w : World) (l : List Stmt) (p : Path) : Prop :=
  (∃ s ∈ l, s.target = .uri p ∧ (isBase p = true ∨ extension w p = none)) ∨ p = ["qbs"]

end Verif.Imports
