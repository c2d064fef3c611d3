import Verif.Version.Model

/-!
# Which file is used for a module (C67)

Model of src/lib/corelib/loader/moduleloader.cpp 104-250. A file with several candidates for a module is a `Module` item with a
condition, a priority and a version.

Simplifications: module providers are behind the list of directories. That files are cached is not modelled. That a property in
the profile is unknown, which is reported for the chosen file, is not modelled.
-/
namespace Verif.Choose
open Verif.Version

structure File where
  path : String
  /-- whether the item in it is a `Module` item -/
  isModule : Bool := true
  condition : Bool := true
  priority : Int := 0
  version : Version := {}
deriving DecidableEq, Repr

/-- `PrioritizedItem`, 104-113 -/
structure Candidate where
  file : File
  priority : Int := 0
  index : Nat
  fits : Bool := true
deriving DecidableEq, Repr

/-- The loop in 190-201. For each directory there are its files; `loadModuleFile`, 227-250 -/
def candidates (dirs : List (List File)) : List Candidate :=
  (List.range dirs.length).flatMap (fun i =>
    ((dirs.getD i []).filter (fun f => f.isModule && f.condition)).map (fun f => { file := f, index := i }))

/-- Whether one is before the other one in the order for `std::max_element`, 121-129 -/
def less (a b : Candidate) : Bool :=
  if a.fits != b.fits then b.fits
  else if a.priority < b.priority then true
  else if a.priority > b.priority then false
  else decide (a.index > b.index)

/-- `std::max_element`: the first one that is not less than another one. -/
def maxElement (m : Candidate) : List Candidate → Candidate
  | [] => m
  | c :: l => maxElement (if less m c then c else m) l

inductive Result
  | none
  | chosen (f : File)
  | ambiguous
deriving DecidableEq, Repr

/-- `chooseModuleCandidate`, 115-148 -/
def choose : List Candidate → Result
  | [] => .none
  | c :: l =>
    let m := maxElement c l
    if (c :: l).countP (fun x => x.priority = m.priority && x.index = m.index && x.fits = m.fits) > 1 then .ambiguous else .chosen m.file

/-- 210-222: the priority and whether the version is in the range -/
def rate (r : Range) (c : Candidate) : Candidate :=
  { c with
    priority := c.file.priority
    fits := if r.minimum.isValid || r.maximum.isValid then
        (!r.minimum.isValid || ge c.file.version r.minimum) && (!r.maximum.isValid || lt c.file.version r.maximum)
      else c.fits }

/-- `ModuleLoader::load`, 171-225 -/
def load (dirs : List (List File)) (r : Range) : Result :=
  match candidates dirs with
  | [] => .none
  | [c] => .chosen c.file
  | l => choose (l.map (rate r))

end Verif.Choose
