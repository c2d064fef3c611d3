import Verif.Includes.Model
/-!
# C51: specification
-/
namespace Verif.Includes

/-- The artifacts at a place. -/
def Here (w : World) (dir name : Str) (a : Artifact) : Prop := a ∈ w.arts ∧ a.dir = dir ∧ a.name = name

/-- The file that is meant by a directory and a name, seen from a product: an artifact if there is one, preferably of
    the product itself, then of one it depends on; otherwise a file that is on disk or known already. -/
def Means (w : World) (product : Nat) (dir name : Str) : File → Prop
  | .art a => Here w dir name a ∧ (a.product = product ∨
      ((∀ b, Here w dir name b → b.product ≠ product) ∧
        (w.dependsOn product a.product = true ∨ ∀ b, Here w dir name b → w.dependsOn product b.product = false)))
  | .dep p => p = dir ++ '/' :: name ∧ ((dir, name) ∈ w.known ∨ w.onDisk p = true) ∧ ∀ b, ¬ Here w dir name b

/-- What a scanned dependency of a job stands for. -/
def Job.target (w : World) (j : Job) (d : Dep) : Option File := resolve w w.known j.start.product j.searchPaths d

/-- The file is no artifact that is still to be built. -/
def Followed (w : World) (f : File) : Prop := ∀ a, f = .art a → a.source = true ∨ w.built a.id = true

/-- The files that are scanned for a job: the input and, if the scanner is recursive, in turn each one found that is
    no artifact still to be built. -/
inductive Scanned (w : World) (j : Job) : Str → Prop
  | start : Scanned w j (File.art j.start).path
  | next {p : Str} {d : Dep} {f : File} : j.recursive = true → Scanned w j p → d ∈ j.scan p → j.target w d = some f →
      Followed w f → Scanned w j f.path

/-- The files found for a job. -/
def Found (w : World) (j : Job) (f : File) : Prop := ∃ p d, Scanned w j p ∧ d ∈ j.scan p ∧ j.target w d = some f

/-- The artifact may become a child of `o` for what a scanner found: it is another one, of another transformer, not a
    child already, and does not depend on `o` itself. -/
def Eligible (w : World) (o : Nat) (other : Nat → Prop) (a : Nat) : Prop :=
  a ≠ o ∧ w.trafo a ≠ w.trafo o ∧ ¬ other a ∧ w.leadsTo a o = false

/-- Jobs that share a part of the cache have the same search paths and belong to the same product. -/
def KeysOk (keys : Nat → List Str × Nat) (jobs : List Job) : Prop :=
  ∀ j ∈ jobs, keys j.key = (j.searchPaths, j.start.product)

/-- The cache holds only what resolution would give. -/
def CacheOk (w : World) (keys : Nat → List Str × Nat) (c : Cache) : Prop :=
  ∀ k e, c.lookup k = some e → e.paths = (keys k).1 ∧
    ∀ d r, e.table.lookup d = some r → r = resolve w w.known (keys k).2 (keys k).1 d

/-- Names found by scanners have no slash. -/
def NamesOk (jobs : List Job) : Prop := ∀ j ∈ jobs, ∀ p, ∀ d ∈ j.scan p, '/' ∉ d.name

end Verif.Includes
