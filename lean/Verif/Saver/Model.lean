/-! # `FileSaver` (src/lib/corelib/tools/filesaver.cpp)

The file system is reduced to the target file and the temporary file next to it.  Every operation of
the operating system may fail; what happens is described by `Env`.  The model returns all the states
of the two files in turn, one per accepted byte, so that a crash is a state of that list. -/

namespace Verif.Saver

abbrev Bytes := List UInt8

/-- The two files; `none`: does not exist. -/
structure FS where
  target : Option Bytes
  temp : Option Bytes
deriving DecidableEq, Repr

/-- Result of `rename`. -/
inductive Ren where
  | ok | eexist | other
deriving DecidableEq, Repr

/-- What the operating system does: can the target be read, can the temporary file be opened, how
many bytes does it take, does closing work, the results of `rename`, `unlink` and the second
`rename`. -/
structure Env where
  readable : Bool
  openTemp : Bool
  accepted : Nat
  close : Bool
  rename1 : Ren
  unlink : Bool
  rename2 : Bool
deriving Repr

/-- `FileSaver::open` (filesaver.cpp:62-76): the old contents, empty if there is no file or it
cannot be read. -/
def oldContents (fs : FS) (e : Env) : Bytes :=
  match fs.target with
  | some c => if e.readable then c else []
  | none => []

/-- The states of the temporary file while it is written, oldest first. -/
def writes (fs : FS) (new : Bytes) : Nat → List FS
  | 0 => [{ fs with temp := some [] }]
  | n + 1 => writes fs new n ++ [{ fs with temp := some (new.take (n + 1)) }]

/-- `FileSaver::open` followed by `write` and `commit` (filesaver.cpp:62-112).  Returns the states
the files go through after the initial one, and the result of `commit`. -/
def save (overwrite : Bool) (fs : FS) (new : Bytes) (e : Env) : List FS × Bool :=
  if overwrite = false ∧ oldContents fs e = new then ([], true)
  else if e.openTemp = false then ([], false)
  else
    let n := min e.accepted new.length
    let ws := writes fs new n
    if n < new.length ∨ e.close = false then (ws, false)
    else
      match e.rename1 with
      | .ok => (ws ++ [⟨some new, none⟩], true)
      | .other => (ws, false)
      | .eexist =>
        if e.unlink = false then (ws, false)
        else
          let ws := ws ++ [⟨none, some new⟩]
          if e.rename2 then (ws ++ [⟨some new, none⟩], true) else (ws, false)

/-- The files after `save`. -/
def final (overwrite : Bool) (fs : FS) (new : Bytes) (e : Env) : FS :=
  ((save overwrite fs new e).1.getLast?).getD fs

end Verif.Saver
