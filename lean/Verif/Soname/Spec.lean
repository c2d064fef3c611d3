import Verif.Soname.Model

/-! # What loaders and linkers find -/

namespace Verif.Soname.Spec

open Verif.Soname

/-- Opening the file `name` in the directory with the library `lib` and symbolic links reaches the library. Creating a link with the name of
the library replaces it, so that the library is only there if no link has its name. -/
inductive Opens (links : List (Str × Str)) (lib : Str) : Str → Prop where
  | file (h : ∀ l ∈ links, l.1 ≠ lib) : Opens links lib lib
  | link (n t : Str) (h : (n, t) ∈ links) (hu : ∀ l ∈ links, l.1 = n → l.2 = t) (ht : Opens links lib t) : Opens links lib n

/-- The name without a version, which `-l` looks for -/
def plainName (p : Product) : Str := p.pre ++ p.target ++ p.variant ++ p.arch ++ p.suffix

end Verif.Soname.Spec
