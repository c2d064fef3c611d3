import Verif.Persist.Model

/-! # Vocabulary for the theorems about the build graph file -/

namespace Verif.Persist

open Verif.DS

/-- Replace the pointers in a value. -/
def mapPtr {O : Other} (φ : Nat → Nat) : (t : Ty) → Val O t → Val O t
  | .bool, v => v
  | .int _ _, v => v
  | .str, v => v
  | .strs, v => v
  | .env, v => v
  | .var, v => v
  | .pair a b, v => (mapPtr φ a v.1, mapPtr φ b v.2)
  | .list a, l => (show List (Val O a) from l).map (mapPtr φ a)
  | .map a, l => (show List (QStr × Val O a) from l).map fun kv => (kv.1, mapPtr φ a kv.2)
  | .umap a, l => (show List (QStr × Val O a) from l).map fun kv => (kv.1, mapPtr φ a kv.2)
  | .opt a, o => (show Option (Val O a) from o).map (mapPtr φ a)
  | .ptr _ _, p => (show Option Nat from p).map φ
  | .poly _, p => (show Option Nat from p).map φ

/-- Lists whose strings are not null (the pool looks lists up by an equality which does not
distinguish null and empty strings, see `C10_null_in_list_lost`). -/
def GoodStrs (l : List QStr) : Prop :=
  l.length < 2 ^ 31 ∧ ∀ s ∈ l, StrOk s ∧ s ≠ none

/-- The keys of a map differ, as Qt compares them. -/
def KeysOk (ks : List QStr) : Prop :=
  ks.length < 2 ^ 31 ∧ (∀ k ∈ ks, StrOk k) ∧ ks.Pairwise fun a b => units a ≠ units b

/-- An environment: variables have names, and they differ. -/
def EnvOk (e : List (QStr × QStr)) : Prop :=
  GoodStrs (e.map (·.1)) ∧ GoodStrs (e.map (·.2)) ∧
    (e.map (·.1)).Pairwise fun a b => units a ≠ units b

def KVs.keys {O : Other} : KVs O → List QStr
  | .nil => []
  | .cons k _ kvs => k :: kvs.keys

mutual
  def VarOk {O : Other} : Var O → Prop
    | .oth _ => True
    | .str s => StrOk s
    | .strs l => GoodStrs l
    | .list l => l.length < 2 ^ 31 ∧ VarsOk l
    | .map m => KeysOk m.keys ∧ KVsOk m
  def VarsOk {O : Other} : Vars O → Prop
    | .nil => True
    | .cons v vs => VarOk v ∧ VarsOk vs
  def KVsOk {O : Other} : KVs O → Prop
    | .nil => True
    | .cons _ v kvs => VarOk v ∧ KVsOk kvs
end

/-- The values C++ can hold and the pool can write: numbers within their type, sizes within `int`;
every pointer points to an object of its class, and `shared` says how an object is referenced
everywhere (see `C11_mixed_pointers_break_identity`). -/
def ValOk {O : Other} (cls : Nat → Nat) (shared : Nat → Bool) : (t : Ty) → Val O t → Prop
  | .bool, _ => True
  | .int w sg, i =>
    let i : Int := i
    0 < w ∧ if sg then -(2 ^ (8 * w - 1) : Nat) ≤ i ∧ i < (2 ^ (8 * w - 1) : Nat)
      else 0 ≤ i ∧ i < (2 ^ (8 * w) : Nat)
  | .str, s => StrOk s
  | .strs, l => GoodStrs l
  | .env, e => EnvOk e
  | .var, v => VarOk v
  | .pair a b, v => ValOk cls shared a v.1 ∧ ValOk cls shared b v.2
  | .list a, l =>
    let l : List (Val O a) := l
    l.length < 2 ^ 31 ∧ ∀ v ∈ l, ValOk cls shared a v
  | .map a, l =>
    let l : List (QStr × Val O a) := l
    KeysOk (l.map (·.1)) ∧ ∀ kv ∈ l, ValOk cls shared a kv.2
  | .umap a, l =>
    let l : List (QStr × Val O a) := l
    KeysOk (l.map (·.1)) ∧ ∀ kv ∈ l, ValOk cls shared a kv.2
  | .opt a, o => ∀ v, (show Option (Val O a) from o) = some v → ValOk cls shared a v
  | .ptr sh c, p => ∀ a, (show Option Nat from p) = some a → shared a = sh ∧ cls a = c
  | .poly sh, p => ∃ a, (show Option Nat from p) = some a ∧ shared a = sh ∧ cls a < 256

/-- The pointers in a value. -/
def ptrs {O : Other} : (t : Ty) → Val O t → List Nat
  | .bool, _ => []
  | .int _ _, _ => []
  | .str, _ => []
  | .strs, _ => []
  | .env, _ => []
  | .var, _ => []
  | .pair a b, v => ptrs a v.1 ++ ptrs b v.2
  | .list a, l => (show List (Val O a) from l).flatMap (ptrs a)
  | .map a, l => (show List (QStr × Val O a) from l).flatMap fun kv => ptrs a kv.2
  | .umap a, l => (show List (QStr × Val O a) from l).flatMap fun kv => ptrs a kv.2
  | .opt a, o => (show Option (Val O a) from o).toList.flatMap (ptrs a)
  | .ptr _ _, p => (show Option Nat from p).toList
  | .poly _, p => (show Option Nat from p).toList

/-- The ids given out fit into an `int`. -/
def Fits (p : SP) : Prop :=
  p.last < 2 ^ 31 ∧ p.v.s.last < 2 ^ 31 ∧ p.v.l.last < 2 ^ 31 ∧ p.v.e.last < 2 ^ 31

/-- The id an object was stored under. -/
def idOf (p : SP) (a : Nat) : Nat := ((p.objs.find? fun x => x.1 == a).map (·.2)).getD 0

/-- The objects which can be reached by following pointers from those in `S`. -/
inductive Reach {O : Other} {classes : Nat → Ty} (h : Heap O classes) (S : List Nat) : Nat → Prop
  | base {a : Nat} : a ∈ S → Reach h S a
  | step {a b : Nat} : Reach h S a → b ∈ ptrs (classes (h.cls a)) (h.get a) → Reach h S b

/-- A value with its type. -/
abbrev Any (O : Other) := (t : Ty) × Val O t

/-- `pool.store(x1); pool.store(x2); ...` -/
def storeAll {O : Other} {classes : Nat → Ty} (h : Heap O classes) (f : Nat) : List (Any O) → Put
  | [] => emit []
  | x :: xs => (storeVal h.cls (storeObj h f) x.1 x.2).seq (storeAll h f xs)

/-- `pool.load(y1); pool.load(y2); ...` with variables of the given types. -/
def loadAll {O : Other} {classes : Nat → Ty} (F : Nat) : List Ty → Get O classes (List (Any O))
  | [] => ret []
  | t :: ts => (loadVal F (loadPtr F) t).bind fun v => (loadAll F ts).bind fun vs => ret (⟨t, v⟩ :: vs)

/-- The pointers in the stored values. -/
def roots {O : Other} (xs : List (Any O)) : List Nat := xs.flatMap fun x => ptrs x.1 x.2

end Verif.Persist
