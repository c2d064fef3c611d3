import Verif.Deps.Model
import Verif.Version.Spec

/-! # Specification for the dependencies of a product -/

namespace Verif.Deps
open Verif.Version

/-- All states the resolving can get into, however often it is deferred and whatever happens to the other products in the
meantime. `P` is something that always holds of them. -/
inductive Reach (P : Now → Prop) (w : World) : St → Prop
  | initial : Reach P w (initial w)
  | next {now s s'} : Reach P w s → P now → step w now s = .next s' → Reach P w s'
  | deferred {now s s'} : Reach P w s → P now → step w now s = .deferred s' → Reach P w s'

/-- Everything is resolved, and no error was found. -/
def Success (P : Now → Prop) (w : World) (s : St) : Prop := Reach P w s ∧ s.stack = [] ∧ s.errors = []

/-- The `Depends` items of the product or of the module with this instance -/
def DependsOf (w : World) (ms : List Mod) : Loader → List Dep → Prop
  | .product, ds => ds = w.depends
  | .module i, ds => ∃ m ∈ ms, m.id = i ∧ m.depends = ds

/-- The name of the item, or the name of one of the submodules, if there are any. -/
def NameIn (d : Dep) (n : Name) : Prop :=
  (d.submodules = none ∧ n = d.name) ∨ ∃ subs, d.submodules = some subs ∧ ∃ sub ∈ subs, n = d.name ++ sub

/-- A `Depends` item asks by name for `n`, for a profile and for a variant, where the empty string is for not saying
which. Which variants these are is the subject of C68. -/
structure Asks (w : World) (d : Dep) (n : Name) (profile variant : String) : Prop where
  enabled : d.enabled = true
  byName : d.productTypes = none
  notBase : d.name ≠ ["qbs"]
  name : NameIn d n
  profile : (profile = "" ∧ d.profiles.getD [] = []) ∨ profile ∈ d.profiles.getD []
  variant : ∃ d', adjust w d = .ok d' ∧ ((variant = "" ∧ d'.muxIds = []) ∨ variant ∈ d'.muxIds)

/-- A `Depends` item asks for all products of some type, and this one is among them at the time. -/
structure AsksBulk (w : World) (ofType : List String → List Nat) (d : Dep) (p : Nat) (q : Product) : Prop where
  enabled : d.enabled = true
  notOff : d.submodules ≠ some []
  byType : ∃ types, d.productTypes = some types ∧ types ≠ [] ∧ p ∈ ofType types
  at' : prodAt w p = some q
  other : p ≠ w.self ∧ ∃ s, prodAt w w.self = some s ∧ q.name ≠ s.name ∧ (d.limit = true → ∃ x, s.projects.head? = some x ∧ x ∈ q.projects)

/-- This product is meant. -/
def Meant (w : World) (limit : Bool) (n : Name) (profile variant : String) (q : Product) : Prop :=
  q.name = toStr n ∧ q.muxId = variant ∧ (profile = "" ∨ q.profile = profile) ∧
    (limit = true → ∃ s, prodAt w w.self = some s ∧ ∃ x, s.projects.head? = some x ∧ x ∈ q.projects)

/-- There is only a product that is disabled, or no product for the profile or the variant. -/
def Unavailable (w : World) (limit : Bool) (n : Name) (profile variant : String) : Prop :=
  (∃ q ∈ w.prods, Meant w limit n profile variant q ∧ q.disabled = true) ∨
    ((profile ≠ "" ∨ variant ≠ "") ∧ ∀ q ∈ w.prods, ¬ Meant w limit n profile variant q)

/-- What has been loaded, a file or a product, is of this profile and this variant. -/
def Fits (w : World) (p : Option Nat) (profile variant : String) : Prop :=
  ∀ i, p = some i → ∃ q, prodAt w i = some q ∧ (profile = "" ∨ q.profile = profile) ∧ q.muxId = variant

/-- Some `Depends` item on the way to this one says that it is not required. -/
inductive Optional (w : World) (ms : List Mod) : Loader → Prop
  | here {m l ds d pr i} : m ∈ ms → l ∈ m.loaders → DependsOf w ms l ds → d ∈ ds → Asks w d m.name pr i → d.required = false →
      Optional w ms (.module m.id)
  | before {m l} : m ∈ ms → l ∈ m.loaders → Optional w ms l → Optional w ms (.module m.id)

/-- The range of versions of a module is the one of its first `Depends` item, narrowed down by the others. This is one of
them. What narrowing down means is the subject of C03. -/
def Counts (m : Mod) (r : Range) : Prop := ∃ first more, m.range = Range.accumulate first more ∧ r ∈ first :: more

/-- The module or product has a `Depends` item that asks for this entry. -/
def Needs (P : Now → Prop) (w : World) (ms : List Mod) (l : Loader) (e : Mod) : Prop :=
  ∃ ds d, DependsOf w ms l ds ∧ d ∈ ds ∧
    ((∃ profile variant, Asks w d e.name profile variant ∧ Fits w e.product profile variant) ∨
     ∃ now p q, P now ∧ AsksBulk w now.ofType d p q ∧ e.name = [q.name] ∧
       ∃ p', e.product = some p' ∧ (p' = p ∨ ∃ q', prodAt w p' = some q' ∧ q'.muxId = ""))

/-- One entry depends on the other one. -/
def DependsOn (P : Now → Prop) (w : World) (ms : List Mod) (m e : Mod) : Prop := m ∈ ms ∧ e ∈ ms ∧ Needs P w ms (.module m.id) e

/-- The product depends on this entry, directly or by way of others. -/
inductive Needed (P : Now → Prop) (w : World) (ms : List Mod) : Mod → Prop
  | direct {e} : e ∈ ms → Needs P w ms .product e → Needed P w ms e
  | indirect {m e} : Needed P w ms m → DependsOn P w ms m e → Needed P w ms e

/-- A `Depends` item asks by name, and only for these names. -/
def Within (names : List Name) (d : Dep) : Prop :=
  d.productTypes = none ∧ ∀ n, NameIn d n → n ∈ names

/-- There are no dependencies by product type, and only finitely many names are ever asked for. -/
structure Bounded (w : World) (names : List Name) : Prop where
  base : ["qbs"] ∈ names
  product : ∀ d ∈ w.depends, Within names d
  exports : ∀ q ∈ w.prods, ∀ d ∈ q.depends, Within names d
  files : ∀ n ∈ names, ∀ r f, w.module n r = .file f → ∀ d ∈ f.depends, Within names d

/-- There is a product that can be used, or a file. -/
def Available (w : World) (d : Dep) (n : Name) (profile variant : String) : Prop :=
  ((∃ q ∈ w.prods, Meant w d.limit n profile variant q) ∧
    ∀ p q, prodAt w p = some q → Meant w d.limit n profile variant q → p ≠ w.self ∧ q.disabled = false) ∨
  ((∀ q ∈ w.prods, ¬ Meant w d.limit n profile variant q) ∧ profile = "" ∧ variant = "" ∧ ∃ f, w.module n d.range = .file f)

/-- A rank for products and one for files -/
def rankOf (rankProduct : Nat → Nat) (rankFile : Name → Nat) (n : Name) : Option Nat → Nat
  | some p => rankProduct p
  | none => rankFile n

/-- The dependencies of something of this rank have a lower rank. -/
def Lower (w : World) (rankProduct : Nat → Nat) (rankFile : Name → Nat) (rank : Nat) (d : Dep) : Prop :=
  ∀ n profile variant p, Asks w d n profile variant → Fits w p profile variant →
    (∀ i, p = some i → ∃ q, prodAt w i = some q ∧ q.name = toStr n) → rankOf rankProduct rankFile n p < rank

/-- Everything that is asked for is there, and nothing depends on itself. -/
structure Sane (w : World) (names : List Name) (rankProduct : Nat → Nat) (rankFile : Name → Nat) : Prop where
  self : (prodAt w w.self).isSome = true
  bounded : Bounded w names
  base : (∀ q ∈ w.prods, q.name ≠ "qbs") ∧ ∃ f, w.module ["qbs"] {} = .file f
  prefixFree : ∀ n ∈ names, ∀ n' ∈ names, n.isPrefixOf n' = true → n = n'
  items : ∀ d, (d ∈ w.depends ∨ (∃ q ∈ w.prods, d ∈ q.depends) ∨ ∃ n ∈ names, ∃ r f, w.module n r = .file f ∧ d ∈ f.depends) →
    d.name ≠ [] ∧ (∃ d', adjust w d = .ok d') ∧ ∀ n profile variant, Asks w d n profile variant → Available w d n profile variant
  exports : ∀ p q, prodAt w p = some q → ∀ d ∈ q.depends, Lower w rankProduct rankFile (rankProduct p) d
  files : ∀ n ∈ names, ∀ r f, w.module n r = .file f → ∀ d ∈ f.depends, Lower w rankProduct rankFile (rankFile n) d

/-- A run that does not end: the states, and what holds of the other products at the time. -/
def Run (w : World) (now : Nat → Now) (s : Nat → St) : Prop :=
  s 0 = initial w ∧ ∀ k, step w (now k) (s k) = .next (s (k + 1)) ∨ step w (now k) (s k) = .deferred (s (k + 1))

end Verif.Deps
