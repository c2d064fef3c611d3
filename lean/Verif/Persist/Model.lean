import Verif.Common.Stream

/-! # The build graph file: `PersistentPool`

Modelled: `src/lib/corelib/tools/persistence.h` and `persistence.cpp`.

A C++ type that can be stored is described by a code `Ty`; `Val t` is the type of its values.
Classes with `completeSerializationOp`, `std::tuple` and the like are nested pairs of their members;
`std::vector`, `QList` and `Set` of values are lists (`Set::load`, set.h:274-283, re-sorts sets of
pointers by their new addresses; the order of such a set is not part of its value and is kept here).
Pointers are numbers of objects in a heap.  Qt's byte encoding is `Verif.DS`; the encoding of a
`QVariant` which is not a string, string list, list or map is Qt's and a parameter. -/

namespace Verif.Persist

open Verif.DS

/-- Codes for the storable types (`PPHelper` specialisations, persistence.h:335-580).

* `int w signed`: integers of `w` bytes, also enums and flags; `long` as 8 bytes.
* `map`: `QMap<QString, V>` or `QHash<QString, V>`; `umap`: `std::unordered_map<QString, V>`.
* `ptr shared c`: a `std::shared_ptr` (`shared`) or plain/unique pointer to an object of class `c`.
* `poly shared`: a type tag followed by a pointer (nodeset.cpp:45-70, rulecommands.cpp:467-495). -/
inductive Ty where
  | bool
  | int (w : Nat) (signed : Bool)
  | str
  | strs
  | env
  | var
  | pair (a b : Ty)
  | list (a : Ty)
  | map (v : Ty)
  | umap (v : Ty)
  | opt (a : Ty)
  | ptr (shared : Bool) (c : Nat)
  | poly (shared : Bool)

/-- Qt's encoding of the other variants: null variants, numbers, ...; `ty` is what `storeVariant`
writes as the type, `QMetaType::User` for null variants (persistence.cpp:143-147). -/
structure Other where
  T : Type
  put : T → Bytes
  get : Bytes → Option (T × Bytes)
  ty : T → Nat

/-- The assumption about Qt: what is written can be read again. -/
structure Other.Lawful (O : Other) : Prop where
  rt : ∀ x r, O.get (O.put x ++ r) = some (x, r)
  ty : ∀ x, O.ty x < 2 ^ 32 ∧ O.ty x ∉ [8, 9, 10, 11]

mutual
  /-- `QVariant`. -/
  inductive Var (O : Other) where
    | oth (x : O.T)
    | str (s : QStr)
    | strs (l : List QStr)
    | list (l : Vars O)
    | map (m : KVs O)
  /-- `QVariantList`. -/
  inductive Vars (O : Other) where
    | nil
    | cons (v : Var O) (vs : Vars O)
  /-- `QVariantMap`, in key order. -/
  inductive KVs (O : Other) where
    | nil
    | cons (k : QStr) (v : Var O) (kvs : KVs O)
end

def Vars.length {O : Other} : Vars O → Nat
  | .nil => 0
  | .cons _ vs => vs.length + 1

def KVs.length {O : Other} : KVs O → Nat
  | .nil => 0
  | .cons _ _ kvs => kvs.length + 1

/-- The values of a type.  Pointers are numbers of heap objects, `none` the null pointer.
An environment is the list of its variables, in the order of `QProcessEnvironment::keys()`. -/
def Val (O : Other) : Ty → Type
  | .bool => Bool
  | .int _ _ => Int
  | .str => QStr
  | .strs => List QStr
  | .env => List (QStr × QStr)
  | .var => Var O
  | .pair a b => Val O a × Val O b
  | .list a => List (Val O a)
  | .map v => List (QStr × Val O v)
  | .umap v => List (QStr × Val O v)
  | .opt a => Option (Val O a)
  | .ptr _ _ => Option Nat
  | .poly _ => Option Nat

/-! ## Qt's notion of equality

`QString::operator==` does not distinguish null and empty strings. -/

/-- The characters of a string. -/
def units (s : QStr) : List UInt16 := s.getD []

def strEq (a b : QStr) : Bool := decide (units a = units b)

def strsEq : List QStr → List QStr → Bool
  | [], [] => true
  | a :: as, b :: bs => strEq a b && strsEq as bs
  | _, _ => false

def envEq : List (QStr × QStr) → List (QStr × QStr) → Bool
  | [], [] => true
  | a :: as, b :: bs => strEq a.1 b.1 && strEq a.2 b.2 && envEq as bs
  | _, _ => false

/-! ## Storing -/

/-- One of the value tables: `idMap` and `lastStoredId` (persistence.h:146-147). -/
structure Tab (α : Type) where
  m : List (α × Nat)
  last : Nat

/-- `idMap<T>().value(value, ValueNotFoundId)`. -/
def Tab.find {α : Type} (eq : α → α → Bool) (t : Tab α) (v : α) : Option Nat :=
  (t.m.find? fun p => eq p.1 v).map (·.2)

/-- `id = lastStoredId<T>()++; idMap<T>().insert(value, id)` (persistence.h:308-309). -/
def Tab.add {α : Type} (t : Tab α) (v : α) : Tab α := ⟨(v, t.last) :: t.m, t.last + 1⟩

/-- `idStoreValue<QString>` with `doStoreValue` (persistence.h:294-316, persistence.cpp:219-222). -/
def storeStr (s : QStr) (t : Tab QStr) : Bytes × Tab QStr :=
  match s with
  | none => (putI32 (-3), t)
  | some us =>
    if us = [] then (putI32 (-2), t)
    else
      match t.find strEq s with
      | some id => (putI32 id, t)
      | none => (putI32 t.last ++ putStr s, t.add s)

/-- The loop over the strings (persistence.cpp:227-228). -/
def storeStrSeq : List QStr → Tab QStr → Bytes × Tab QStr
  | [], t => ([], t)
  | s :: ss, t =>
    let (b, t) := storeStr s t
    let (b', t) := storeStrSeq ss t
    (b ++ b', t)

/-- The three value tables of the writer. -/
structure VP where
  s : Tab QStr
  l : Tab (List QStr)
  e : Tab (List (QStr × QStr))

/-- `idStoreValue<QStringList>` with `doStoreValue` (persistence.h:294-316,
persistence.cpp:224-229). -/
def storeStrs (l : List QStr) (p : VP) : Bytes × VP :=
  if l = [] then (putI32 (-2), p)
  else
    match p.l.find strsEq l with
    | some id => (putI32 id, p)
    | none =>
      let (b, s) := storeStrSeq l p.s
      (putI32 p.l.last ++ (putI32 l.length ++ b), { p with s := s, l := p.l.add l })

/-- `idStoreValue<QProcessEnvironment>` with `doStoreValue` (persistence.h:294-316,
persistence.cpp:231-237). -/
def storeEnv (v : List (QStr × QStr)) (p : VP) : Bytes × VP :=
  if v = [] then (putI32 (-2), p)
  else
    match p.e.find envEq v with
    | some id => (putI32 id, p)
    | none =>
      let (b, q) := storeStrs (v.map (·.1)) p
      let (b', s) := storeStrSeq (v.map (·.2)) q.s
      (putI32 p.e.last ++ (b ++ b'), { q with s := s, e := p.e.add v })

/-- `QMetaType` numbers. -/
def tyMap : Nat := 8
def tyList : Nat := 9
def tyStr : Nat := 10
def tyStrs : Nat := 11

mutual
  /-- `storeVariant` (persistence.cpp:141-166). -/
  def storeVar {O : Other} : Var O → VP → Bytes × VP
    | .oth x, p => (putBE 4 (O.ty x) ++ O.put x, p)
    | .str s, p =>
      let (b, t) := storeStr s p.s
      (putBE 4 tyStr ++ b, { p with s := t })
    | .strs l, p =>
      let (b, p) := storeStrs l p
      (putBE 4 tyStrs ++ b, p)
    | .list l, p =>
      let (b, p) := storeVars l p
      (putBE 4 tyList ++ (putI32 l.length ++ b), p)
    | .map m, p =>
      let (b, p) := storeKVs m p
      (putBE 4 tyMap ++ (putI32 m.length ++ b), p)
  /-- The loop of the container helper (persistence.h:493-494) for a `QVariantList`. -/
  def storeVars {O : Other} : Vars O → VP → Bytes × VP
    | .nil, p => ([], p)
    | .cons v vs, p =>
      let (b, p) := storeVar v p
      let (b', p) := storeVars vs p
      (b ++ b', p)
  /-- The loop of the key/value container helper (persistence.h:523-526) for a `QVariantMap`. -/
  def storeKVs {O : Other} : KVs O → VP → Bytes × VP
    | .nil, p => ([], p)
    | .cons k v kvs, p =>
      let (b, t) := storeStr k p.s
      let (b', p) := storeVar v { p with s := t }
      let (b'', p) := storeKVs kvs p
      (b ++ (b' ++ b''), p)
end

/-- The state of a writing pool: value tables, `m_storageIndices`, `m_lastStoredObjectId`. -/
structure SP where
  v : VP
  objs : List (Nat × Nat)
  last : Nat

/-- After `setupWriteStream` on a new pool (persistence.cpp:117-122). -/
def SP.init : SP := ⟨⟨⟨[], 0⟩, ⟨[], 0⟩, ⟨[], 0⟩⟩, [], 0⟩

/-- A store operation: appends bytes and changes the pool; `none`: no result within the fuel, or a
null pointer dereferenced. -/
abbrev Put := SP → Option (Bytes × SP)

def emit (b : Bytes) : Put := fun p => some (b, p)

/-- One operation after the other. -/
def Put.seq (f g : Put) : Put := fun p =>
  match f p with
  | none => none
  | some (b, p) =>
    match g p with
    | none => none
    | some (b', p) => some (b ++ b', p)

/-- Lift operations on the value tables. -/
def onV (f : VP → Bytes × VP) : Put := fun p =>
  some ((f p.v).1, { p with v := (f p.v).2 })

def onS (f : Tab QStr → Bytes × Tab QStr) : Put :=
  onV fun p => ((f p.s).1, { p with s := (f p.s).2 })

/-- Store the elements of a container one by one. -/
def putSeq {α : Type} (f : α → Put) : List α → Put
  | [] => emit []
  | a :: as => (f a).seq (putSeq f as)

/-- `PPHelper<T>::store` (persistence.h:335-572); `so` is `storeSharedObject` for a non-null
pointer, `cls` gives the dynamic type of an object. -/
def storeVal {O : Other} (cls : Nat → Nat) (so : Nat → Put) : (t : Ty) → Val O t → Put
  | .bool, b => emit (putU8 (if (show Bool from b) then 1 else 0))
  | .int w _, i => emit (putBE w (toU (8 * w) i))
  | .str, s => onS (storeStr s)
  | .strs, l => onV (storeStrs l)
  | .env, e => onV (storeEnv e)
  | .var, v => onV (storeVar v)
  | .pair a b, v => (storeVal cls so a v.1).seq (storeVal cls so b v.2)
  | .list a, l =>
    let l : List (Val O a) := l
    (emit (putI32 l.length)).seq (putSeq (storeVal cls so a) l)
  | .map a, l =>
    let l : List (QStr × Val O a) := l
    (emit (putI32 l.length)).seq
      (putSeq (fun kv : QStr × Val O a => (onS (storeStr kv.1)).seq (storeVal cls so a kv.2)) l)
  | .umap a, l =>
    let l : List (QStr × Val O a) := l
    (emit (putBE 4 l.length)).seq
      (putSeq (fun kv : QStr × Val O a => (onS (storeStr kv.1)).seq (storeVal cls so a kv.2)) l)
  | .opt a, o =>
    match (show Option (Val O a) from o) with
    | some v => (emit (putI32 (-2))).seq (storeVal cls so a v)
    | none => emit (putI32 (-1))
  | .ptr _ _, p =>
    match (show Option Nat from p) with
    | none => emit (putI32 (-1))
    | some a => so a
  | .poly _, p =>
    match (show Option Nat from p) with
    | none => fun _ => none
    | some a => (emit (putU8 (cls a))).seq (so a)

/-- The objects: class and contents. -/
structure Heap (O : Other) (classes : Nat → Ty) where
  cls : Nat → Nat
  get : (a : Nat) → Val O (classes (cls a))

/-- `storeSharedObject` (persistence.h:178-194) for a non-null pointer; the fuel is the depth of
nested first-time stores. -/
def storeObj {O : Other} {classes : Nat → Ty} (h : Heap O classes) : Nat → Nat → Put
  | 0, _ => fun _ => none
  | f + 1, a => fun p =>
    match p.objs.find? (fun x => x.1 == a) with
    | some (_, id) => some (putI32 id, p)
    | none =>
      match storeVal h.cls (storeObj h f) (classes (h.cls a)) (h.get a)
          { p with objs := (a, p.last) :: p.objs, last := p.last + 1 } with
      | none => none
      | some (b, p') => some (putI32 p.last ++ b, p')

/-! ## Loading -/

/-- `vec.resize(n)` with null elements, for growing. -/
def grow {α : Type} (d : α) (l : List α) (n : Nat) : List α := l ++ List.replicate (n - l.length) d

/-- The value tables of the reader: `m_stringStorage` etc. -/
structure VL where
  s : List QStr
  l : List (List QStr)
  e : List (List (QStr × QStr))

/-- `idLoadValue<QString>` (persistence.h:272-292); `none` is an exception (`QBS_CHECK`) or a read
past the end, which the C++ stream answers with zeros and an error status. -/
def loadStr (bs : Bytes) (t : List QStr) : Option (QStr × Bytes × List QStr) :=
  match getI32 bs with
  | none => none
  | some (id, r) =>
    if id = -3 then some (none, r, t)
    else if id = -2 then some (some [], r, t)
    else if id < 0 then none
    else if t.length ≤ id.toNat then
      match getStr r with
      | none => none
      | some (v, r) => some (v, r, (grow none t (id.toNat + 1)).set id.toNat v)
    else some ((t[id.toNat]?).getD none, r, t)

/-- The loop in `doLoadValue(QStringList &)` (persistence.cpp:204-210). -/
def loadStrSeq : Nat → Bytes → List QStr → Option (List QStr × Bytes × List QStr)
  | 0, bs, t => some ([], bs, t)
  | n + 1, bs, t =>
    match loadStr bs t with
    | none => none
    | some (s, r, t) =>
      match loadStrSeq n r t with
      | none => none
      | some (ss, r, t) => some (s :: ss, r, t)

/-- `idLoadValue<QStringList>` (persistence.h:272-292, persistence.cpp:204-210). -/
def loadStrs (bs : Bytes) (p : VL) : Option (List QStr × Bytes × VL) :=
  match getI32 bs with
  | none => none
  | some (id, r) =>
    if id = -3 then some ([], r, p)
    else if id = -2 then some ([], r, p)
    else if id < 0 then none
    else if p.l.length ≤ id.toNat then
      match getI32 r with
      | none => none
      | some (n, r) =>
        match loadStrSeq n.toNat r p.s with
        | none => none
        | some (v, r, s) => some (v, r, { p with s := s, l := (grow [] p.l (id.toNat + 1)).set id.toNat v })
    else some ((p.l[id.toNat]?).getD [], r, p)

/-- `env.insert(key, value)`: replaces the value of an existing key. -/
def insertKV {α : Type} (k : QStr) (v : α) : List (QStr × α) → List (QStr × α)
  | [] => [(k, v)]
  | x :: xs => if strEq x.1 k then (x.1, v) :: xs else x :: insertKV k v xs

/-- `std::unordered_map::insert`: keeps the value of an existing key. -/
def insertKeep {α : Type} (k : QStr) (v : α) : List (QStr × α) → List (QStr × α)
  | [] => [(k, v)]
  | x :: xs => if strEq x.1 k then x :: xs else x :: insertKeep k v xs

/-- Build a map by inserting the entries in turn. -/
def build {α : Type} (ins : QStr → α → List (QStr × α) → List (QStr × α)) (l : List (QStr × α)) :
    List (QStr × α) := l.foldl (fun m kv => ins kv.1 kv.2 m) []

/-- `idLoadValue<QProcessEnvironment>` (persistence.h:272-292, persistence.cpp:212-217). -/
def loadEnv (bs : Bytes) (p : VL) : Option (List (QStr × QStr) × Bytes × VL) :=
  match getI32 bs with
  | none => none
  | some (id, r) =>
    if id = -3 then some ([], r, p)
    else if id = -2 then some ([], r, p)
    else if id < 0 then none
    else if p.e.length ≤ id.toNat then
      match loadStrs r p with
      | none => none
      | some (ks, r, p) =>
        match loadStrSeq ks.length r p.s with
        | none => none
        | some (vs, r, s) =>
          let v := build insertKV (ks.zip vs)
          some (v, r, { p with s := s, e := (grow [] p.e (id.toNat + 1)).set id.toNat v })
    else some ((p.e[id.toNat]?).getD [], r, p)

/-- `container.push_back(load)` `n` times. -/
def loadVars {O : Other} (g : Bytes → VL → Option (Var O × Bytes × VL)) :
    Nat → Bytes → VL → Option (Vars O × Bytes × VL)
  | 0, bs, p => some (.nil, bs, p)
  | n + 1, bs, p =>
    match g bs p with
    | none => none
    | some (v, r, p) =>
      match loadVars g n r p with
      | none => none
      | some (vs, r, p) => some (.cons v vs, r, p)

/-- `QMap::insert` into a `QVariantMap`. -/
def KVs.insert {O : Other} (k : QStr) (v : Var O) : KVs O → KVs O
  | .nil => .cons k v .nil
  | .cons k' v' kvs => if strEq k' k then .cons k' v kvs else .cons k' v' (kvs.insert k v)

/-- The loop of the key/value helper (persistence.h:532-536): insert `n` entries. -/
def loadKVs {O : Other} (g : Bytes → VL → Option (Var O × Bytes × VL)) :
    Nat → KVs O → Bytes → VL → Option (KVs O × Bytes × VL)
  | 0, acc, bs, p => some (acc, bs, p)
  | n + 1, acc, bs, p =>
    match loadStr bs p.s with
    | none => none
    | some (k, r, t) =>
      match g r { p with s := t } with
      | none => none
      | some (v, r, p) => loadKVs g n (acc.insert k v) r p

/-- `loadVariant` (persistence.cpp:168-189).  The fuel bounds the nesting; the number of remaining
bytes is always enough. -/
def loadVar {O : Other} : Nat → Bytes → VL → Option (Var O × Bytes × VL)
  | 0, _, _ => none
  | F + 1, bs, p =>
    match getBE 4 bs with
    | none => none
    | some (ty, r) =>
      if ty = tyStr then
        match loadStr r p.s with
        | none => none
        | some (s, r, t) => some (.str s, r, { p with s := t })
      else if ty = tyStrs then
        match loadStrs r p with
        | none => none
        | some (l, r, p) => some (.strs l, r, p)
      else if ty = tyList then
        match getI32 r with
        | none => none
        | some (n, r) =>
          match loadVars (loadVar F) n.toNat r p with
          | none => none
          | some (l, r, p) => some (.list l, r, p)
      else if ty = tyMap then
        match getI32 r with
        | none => none
        | some (n, r) =>
          match loadKVs (loadVar F) n.toNat .nil r p with
          | none => none
          | some (m, r, p) => some (.map m, r, p)
      else
        match O.get r with
        | none => none
        | some (x, r) => some (.oth x, r, p)

/-- The state of a reading pool: value tables, `m_loadedRaw`, `m_loaded`, and the objects created so
far with their contents. -/
structure LP (O : Other) (classes : Nat → Ty) where
  v : VL
  raw : List (Option Nat)
  shared : List (Option Nat)
  heap : Nat → Option ((c : Nat) × Val O (classes c))
  next : Nat

/-- After `load(filePath)` on a new pool (persistence.cpp:88-94). -/
def LP.init (O : Other) (classes : Nat → Ty) : LP O classes :=
  ⟨⟨[], [], []⟩, [], [], fun _ => none, 0⟩

/-- A load operation. -/
abbrev Get (O : Other) (classes : Nat → Ty) (α : Type) :=
  Bytes → LP O classes → Option (α × Bytes × LP O classes)

section
variable {O : Other} {classes : Nat → Ty}

def Get.bind {α β : Type} (g : Get O classes α) (k : α → Get O classes β) : Get O classes β :=
  fun bs p =>
    match g bs p with
    | none => none
    | some (a, r, p) => k a r p

def ret {α : Type} (a : α) : Get O classes α := fun bs p => some (a, bs, p)

/-- Lift stream operations and operations on the value tables. -/
def raw {α : Type} (g : Bytes → Option (α × Bytes)) : Get O classes α := fun bs p =>
  match g bs with
  | none => none
  | some (a, r) => some (a, r, p)

def onVL {α : Type} (g : Bytes → VL → Option (α × Bytes × VL)) : Get O classes α := fun bs p =>
  match g bs p.v with
  | none => none
  | some (a, r, v) => some (a, r, { p with v := v })

def withS {α : Type} (g : Bytes → List QStr → Option (α × Bytes × List QStr)) (bs : Bytes) (v : VL) :
    Option (α × Bytes × VL) :=
  match g bs v.s with
  | none => none
  | some (a, r, s) => some (a, r, { v with s := s })

def onSL {α : Type} (g : Bytes → List QStr → Option (α × Bytes × List QStr)) : Get O classes α :=
  onVL (withS g)

/-- Load `n` elements. -/
def getSeq {α : Type} (g : Get O classes α) : Nat → Get O classes (List α)
  | 0 => ret []
  | n + 1 => g.bind fun a => (getSeq g n).bind fun as => ret (a :: as)

/-- `PPHelper<T>::load` (persistence.h:335-580); `lp` is `idLoad`/`idLoadS`, `F` the fuel for
variants. -/
def loadVal (F : Nat) (lp : Bool → Nat → Get O classes (Option Nat)) :
    (t : Ty) → Get O classes (Val O t)
  | .bool => (raw getU8).bind fun n => ret (show Bool from n != 0)
  | .int w sg => (raw (getBE w)).bind fun n =>
      ret (show Int from if sg then toS (8 * w) n else n)
  | .str => onSL loadStr
  | .strs => onVL loadStrs
  | .env => onVL loadEnv
  | .var => onVL (loadVar F)
  | .pair a b => (loadVal F lp a).bind fun x => (loadVal F lp b).bind fun y => ret (x, y)
  | .list a => (raw getI32).bind fun n => getSeq (loadVal F lp a) n.toNat
  | .map a => (raw getI32).bind fun n =>
      (getSeq ((onSL loadStr).bind fun k => (loadVal F lp a).bind fun v => ret (k, v)) n.toNat).bind
        fun l => ret (build insertKV l)
  | .umap a => (raw (getBE 4)).bind fun n =>
      (getSeq ((onSL loadStr).bind fun k => (loadVal F lp a).bind fun v => ret (k, v)) n).bind
        fun l => ret (build insertKeep l)
  | .opt a => (raw getI32).bind fun m =>
      if m = -2 then (loadVal F lp a).bind fun v => ret (some v) else ret none
  | .ptr sh c => lp sh c
  | .poly sh => (raw getU8).bind fun c => lp sh c

/-- `idLoad<T>` (persistence.h:196-216) and `idLoadS<T>` (254-270) for an object of class `c`.
A new object gets the next number.  The fuel bounds the nesting. -/
def loadPtr : Nat → Bool → Nat → Get O classes (Option Nat)
  | 0, _, _ => fun _ _ => none
  | F + 1, sh, c => fun bs p =>
    match getI32 bs with
    | none => none
    | some (id, r) =>
      if id < 0 then some (none, r, p)
      else
        let tab := if sh then p.shared else p.raw
        if id.toNat < tab.length then some ((tab[id.toNat]?).getD none, r, p)
        else
          let obj := p.next
          let tab' := (grow none tab (id.toNat + 1)).set id.toNat (some obj)
          let p1 := { p with
            next := obj + 1
            shared := if sh then tab' else p.shared
            raw := if sh then p.raw else tab' }
          match loadVal F (loadPtr F) (classes c) r p1 with
          | none => none
          | some (v, r, p2) =>
            some (some obj, r,
              { p2 with heap := fun i => if i = obj then some ⟨c, v⟩ else p2.heap i })

/-- Load a value; the number of bytes is enough fuel. -/
def load (t : Ty) (bs : Bytes) (p : LP O classes) : Option (Val O t × Bytes × LP O classes) :=
  loadVal bs.length (loadPtr bs.length) t bs p

end

end Verif.Persist
