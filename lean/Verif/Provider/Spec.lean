import Verif.Provider.Model
/-!
# What module providers should do

Without any cache: what a request is answered with if it is the only one.
-/
namespace Verif.Provider

variable {V : Type}

/-- `path/module-providers/a.b.qbs`. -/
def fileOne (path : String) (n : Name) : String :=
  "/".intercalate [path, "module-providers", ".".intercalate n ++ ".qbs"]

/-- `path/module-providers/a/b/provider.qbs`. -/
def fileTwo (path : String) (n : Name) : String :=
  "/".intercalate (path :: "module-providers" :: n ++ ["provider.qbs"])

/-- The file of a provider in one search path: `a.b.qbs` goes first and counts only for providers
asked for by name. -/
def FileIn (w : World V) (n : Name) (l : Lookup) (path f : String) : Prop :=
  w.fileExists f = true ∧
  ((l = .named ∧ f = fileOne path n) ∨
   (¬ (l = .named ∧ w.fileExists (fileOne path n) = true) ∧ f = fileTwo path n))

/-- The file of a provider, in the first search path that has one. -/
def IsFile (w : World V) (paths : List String) (n : Name) (l : Lookup) (f : String) : Prop :=
  ∃ before path after, paths = before ++ path :: after ∧
    (∀ b ∈ before, ∀ g, ¬ FileIn w n l b g) ∧ FileIn w n l path f

/-- What a single provider gives to a product that needs a module. -/
inductive Gives (w : World V) (p : Prod V) (m : Name) : Name × Lookup → Option (List String) → Prop
  /-- There is no such provider. -/
  | missing {n l} : (∀ f, ¬ IsFile w p.searchPaths n l f) → Gives w p m (n, l) none
  /-- It is run; an eager one does not know the module. -/
  | runs {n l f rel} : IsFile w p.searchPaths n l f →
      w.eval f n (if w.eager f (configOf p n) p.qbs then none else some m) (configOf p n) p.qbs =
        some rel →
      Gives w p m (n, l) (some (rel.map fun r =>
        outputDir w n ++ "/" ++ w.hash (configOf p n) p.qbs ++ "/" ++ r))

/-- The script of the provider fails. -/
def Fails (w : World V) (p : Prod V) (m : Name) (n : Name) (l : Lookup) : Prop :=
  ∃ f, IsFile w p.searchPaths n l f ∧
    w.eval f n (if w.eager f (configOf p n) p.qbs then none else some m) (configOf p n) p.qbs = none

/-- The answer for a list of providers, if the product is alone: all search paths in order, up to
the first error. -/
inductive Answer (w : World V) (p : Prod V) (m : Name) : List (Name × Lookup) → Outcome → Prop
  | nil : Answer w p m [] (.ok false [])
  | skip {n rest o} : Gives w p m (n, .scoped) none → Answer w p m rest o →
      Answer w p m ((n, .scoped) :: rest) o
  | unknown {n rest} : Gives w p m (n, .named) none →
      Answer w p m ((n, .named) :: rest) (.unknown n)
  | failed {n l rest} : Fails w p m n l → Answer w p m ((n, l) :: rest) (.failed n)
  | runs {n l rest ps found qs} : Gives w p m (n, l) (some ps) → Answer w p m rest (.ok found qs) →
      Answer w p m ((n, l) :: rest) (.ok true (ps ++ qs))
  | error {n l rest ps x} : Gives w p m (n, l) (some ps) → Answer w p m rest x →
      (∀ f qs, x ≠ .ok f qs) → Answer w p m ((n, l) :: rest) x

/-- The providers in question: those of the first list among the product's and those of the projects
around it, or else those named like the module and what is around it. -/
def Asked (p : Prod V) (m : Name) (l : List (Name × Lookup)) : Prop :=
  (∃ before ns after, p.providers = before ++ some ns :: after ∧ (∀ b ∈ before, b = none) ∧
    l = ns.map (·, Lookup.named)) ∨
  ((∀ b ∈ p.providers, b = none) ∧
    l.length = m.length ∧ ∀ i, i < m.length → l[i]? = some (m.take (m.length - i), .scoped))

/-- Where they look for a provider, all products of a project see the same file. -/
def Agree (w : World V) (ps : List (Prod V)) : Prop :=
  ∀ p ∈ ps, ∀ q ∈ ps, ∀ n l f, IsFile w p.searchPaths n l f ↔ IsFile w q.searchPaths n l f

/-- The products of all requests are among `ps`. -/
def Of (ps : List (Prod V)) (ts : List (Thread V)) : Prop :=
  ∀ t ∈ ts, t.cur = none ∧ t.done = [] ∧ ∀ r ∈ t.todo, r.prod ∈ ps

/-- What can be on the disk after any number of sessions with the same providers. -/
inductive Reach [DecidableEq V] (w : World V) (ps : List (Prod V)) : Disk V → Prop
  | empty : Reach w ps ⟨[], []⟩
  | session {d} (dry force : Bool) (ts : List (Thread V)) (sched : List Nat) : Reach w ps d →
      Of ps ts → Reach w ps (session w dry force ts sched d).1

/-- Every stored result of a provider has its directory. -/
def DirsOk (w : World V) (d : Disk V) : Prop :=
  ∀ e ∈ d.stored, e.2.file ≠ none → dirOf w e.1 ∈ d.dirs

end Verif.Provider
