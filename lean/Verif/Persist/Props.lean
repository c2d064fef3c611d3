import Verif.Persist.LemW

/-! # C10, C11: what is stored in the build graph file loads back

The encoding of `QVariant`s other than strings, lists and maps is Qt's; the theorems hold for any
encoding which Qt can read back (`O.Lawful`). -/

namespace Verif.Persist

open Verif.DS

section
variable {O : Other} {classes : Nat → Ty}

theorem monoP_all (h : Heap O classes) (f : Nat) (xs : List (Any O)) : MonoP (storeAll h f xs) := by
  induction xs with
  | nil => exact monoP_emit []
  | cons x xs ih => exact monoP_seq (monoP_val (monoP_obj h f) _ _) ih

theorem codes_all {h : Heap O classes} {shared : Nat → Bool} {φ : Nat → Nat} (hO : O.Lawful)
    (hok : ∀ a, ValOk h.cls shared (classes (h.cls a)) (h.get a)) (f : Nat) (xs : List (Any O))
    (hx : ∀ x ∈ xs, ValOk h.cls shared x.1 x.2) :
    Codes h shared φ (storeAll h f xs) (fun F => loadAll F (xs.map (·.1)))
      (xs.map fun x => ⟨x.1, mapPtr φ x.1 x.2⟩) := by
  induction xs with
  | nil => exact codes_nil []
  | cons x xs ih =>
    refine Codes.bind (codes_val hO (monoP_obj h f) (codes_obj hO hok f) x.1 x.2 (hx x (by simp)))
      (monoP_all h f xs)
      (g2 := fun v F => (loadAll F (xs.map (·.1))).bind fun vs => ret (⟨x.1, v⟩ :: vs)) ?_
    exact Codes.ret (ih fun y hy => hx y (by simp [hy])) _

theorem facts_all {h : Heap O classes} (f : Nat) (xs : List (Any O)) :
    Facts h (storeAll h f xs) (roots xs) := by
  induction xs with
  | nil => exact facts_emit []
  | cons x xs ih => exact facts_seq (facts_val (monoP_obj h f) (facts_obj f) _ _) ih (monoP_all h f xs)

theorem uInv_init : UInv SP.init := by
  constructor <;> simp [SP.init]

theorem sim_init (h : Heap O classes) (shared : Nat → Bool) (φ : Nat → Nat) :
    Sim h shared φ [] SP.init (LP.init O classes) := by
  constructor <;> try (simp [SP.init, LP.init, LP.tab]; done)
  constructor <;> simp [SP.init, LP.init, TabSim]

theorem agrees_idOf {p : SP} (hu : UInv p) : Agrees (idOf p) p := by
  intro a i hi
  unfold idOf
  cases hf : p.objs.find? (fun x => x.1 == a) with
  | none => exact absurd (beq_self_eq_true a) (List.find?_eq_none.1 hf (a, i) hi)
  | some x =>
    obtain ⟨b, j⟩ := x
    have h1 := List.mem_of_find?_eq_some hf
    have h2 := List.find?_some hf
    simp only [beq_iff_eq] at h2
    subst h2
    exact hu.key _ _ _ h1 hi

/-- C10, C11.  Store any values `xs` into a new pool, one after the other, whose pointers lead into
any heap of objects, shared or cyclic.  Then loading values of the same types gives the same values,
where every pointer to an object `a` has become a pointer to the new object `idOf P a`; exactly the
written bytes are consumed.  The new objects have the contents of the old ones, again with the
pointers replaced; different objects stay different; and there is exactly one new object for every
object that can be reached. -/
theorem C11_objects_round_trip (hO : O.Lawful) (h : Heap O classes) (shared : Nat → Bool)
    (hok : ∀ a, ValOk h.cls shared (classes (h.cls a)) (h.get a))
    (xs : List (Any O)) (hx : ∀ x ∈ xs, ValOk h.cls shared x.1 x.2)
    {f : Nat} {b : Bytes} {P : SP} (hs : storeAll h f xs SP.init = some (b, P)) (hf : Fits P)
    (rest : Bytes) :
    ∃ L : LP O classes,
      loadAll (b ++ rest).length (xs.map (·.1)) (b ++ rest) (LP.init O classes) =
        some (xs.map fun x => ⟨x.1, mapPtr (idOf P) x.1 x.2⟩, rest, L) ∧
      (∀ a, Reach h (roots xs) a → L.heap (idOf P a) =
        some ⟨h.cls a, mapPtr (idOf P) (classes (h.cls a)) (h.get a)⟩) ∧
      (∀ a a', Reach h (roots xs) a → Reach h (roots xs) a' → idOf P a = idOf P a' → a = a') ∧
      (∀ i, L.heap i ≠ none ↔ ∃ a, Reach h (roots xs) a ∧ idOf P a = i) := by
  obtain ⟨hc, hk, hr, hu⟩ := facts_all f xs _ _ _ hs
  have hU := hu uInv_init
  have hA := agrees_idOf hU
  obtain ⟨L, hl, hsim⟩ := codes_all hO hok f xs hx [] _ _ _ hs (LP.init O classes)
    (sim_init h shared (idOf P)) hA hf rest (b ++ rest).length (by simp)
  have hC := hc [] (by intro a ⟨i, hi⟩; simp [SP.init] at hi)
  have hreach : ∀ a, Reach h (roots xs) a → Known P a := by
    intro a ha
    induction ha with
    | base ha => exact hk _ ha
    | step _ hb ih => exact hC _ ih (by simp) _ hb
  refine ⟨L, hl, ?_, ?_, ?_⟩
  · intro a ha
    obtain ⟨i, hi⟩ := hreach a ha
    rw [hA a i hi]
    exact hsim.heap a i hi (by simp)
  · intro a a' ha ha' he
    obtain ⟨i, hi⟩ := hreach a ha
    obtain ⟨j, hj⟩ := hreach a' ha'
    rw [hA a i hi, hA a' j hj] at he
    subst he
    exact hsim.inj a a' i hi hj
  · intro i
    constructor
    · intro hne
      by_cases hi : i < P.last
      · obtain ⟨a, ha⟩ := hU.all i hi
        refine ⟨a, ?_, hA a i ha⟩
        rcases hr a ⟨i, ha⟩ with ⟨j, hj⟩ | hr
        · simp [SP.init] at hj
        · exact hr
      · exact absurd (hsim.fresh i (by omega)) hne
    · rintro ⟨a, ha, rfl⟩
      obtain ⟨i, hi⟩ := hreach a ha
      rw [hA a i hi, hsim.heap a i hi (by simp)]
      simp

/-- Types without pointers. -/
def noPtr : Ty → Bool
  | .pair a b => noPtr a && noPtr b
  | .list a => noPtr a
  | .map a => noPtr a
  | .umap a => noPtr a
  | .opt a => noPtr a
  | .ptr _ _ => false
  | .poly _ => false
  | _ => true

theorem mapPtr_noPtr (φ : Nat → Nat) : (t : Ty) → noPtr t = true → ∀ v : Val O t, mapPtr φ t v = v := by
  intro t
  induction t with
  | pair a b iha ihb =>
    intro hn v
    simp only [noPtr, Bool.and_eq_true] at hn
    simp only [mapPtr, iha hn.1, ihb hn.2]
    rfl
  | list a ih =>
    intro hn v
    have e : mapPtr φ a = id := funext fun x => ih hn x
    simp only [mapPtr, e]
    exact List.map_id _
  | map a ih =>
    intro hn v
    have e : mapPtr φ a = id := funext fun x => ih hn x
    simp only [mapPtr, e]
    exact List.map_id _
  | umap a ih =>
    intro hn v
    have e : mapPtr φ a = id := funext fun x => ih hn x
    simp only [mapPtr, e]
    exact List.map_id _
  | opt a ih =>
    intro hn v
    have e : mapPtr φ a = id := funext fun x => ih hn x
    simp only [mapPtr, e]
    exact congrFun Option.map_id _
  | ptr sh c => intro hn; simp [noPtr] at hn
  | poly sh => intro hn; simp [noPtr] at hn
  | _ => intro _ v; rfl

/-- C10.  Values without pointers load back unchanged, in the order they were stored, and loading
consumes exactly the bytes written.  (`_partial`: strings within lists and environments are not
null, see `C10_null_in_list_lost`.) -/
theorem C10_values_round_trip_partial (hO : O.Lawful) (h : Heap O classes) (shared : Nat → Bool)
    (hok : ∀ a, ValOk h.cls shared (classes (h.cls a)) (h.get a))
    (xs : List (Any O)) (hx : ∀ x ∈ xs, ValOk h.cls shared x.1 x.2)
    (hn : ∀ x ∈ xs, noPtr x.1 = true)
    {f : Nat} {b : Bytes} {P : SP} (hs : storeAll h f xs SP.init = some (b, P)) (hf : Fits P)
    (rest : Bytes) :
    ∃ L : LP O classes,
      loadAll (b ++ rest).length (xs.map (·.1)) (b ++ rest) (LP.init O classes) =
        some (xs, rest, L) := by
  obtain ⟨L, hl, _⟩ := C11_objects_round_trip hO h shared hok xs hx hs hf rest
  refine ⟨L, ?_⟩
  have : xs.map (fun x => (⟨x.1, mapPtr (idOf P) x.1 x.2⟩ : Any O)) = xs := by
    have e : ∀ x ∈ xs, (⟨x.1, mapPtr (idOf P) x.1 x.2⟩ : Any O) = x := by
      intro x hx
      rw [mapPtr_noPtr _ _ (hn x hx)]
    rw [List.map_congr_left e]
    exact List.map_id _
  rw [hl, this]

/-- C11.  Storing ends for every finite object graph, also a cyclic one: it is enough to nest
first-time stores as deep as there are objects. -/
theorem C11_store_ends (h : Heap O classes) (shared : Nat → Bool)
    (hok : ∀ a, ValOk h.cls shared (classes (h.cls a)) (h.get a))
    (xs : List (Any O)) (hx : ∀ x ∈ xs, ValOk h.cls shared x.1 x.2)
    (dom : List Nat) (hdom : ∀ a, Reach h (roots xs) a → a ∈ dom) :
    ∃ b P, storeAll h (dom.length + 1) xs SP.init = some (b, P) := by
  classical
  let d := dom.filter fun a => decide (Reach h (roots xs) a)
  have hd : ∀ a, a ∈ d ↔ Reach h (roots xs) a := by
    intro a
    simp only [d, List.mem_filter, decide_eq_true_eq]
    exact ⟨fun x => x.2, fun x => ⟨hdom a x, x⟩⟩
  have hobj : ∀ a ∈ d, Total d dom.length (storeObj h (dom.length + 1) a) := fun a ha =>
    total_obj hok (fun x hx y hy => (hd y).2 (Reach.step ((hd x).1 hx) hy)) _ a ha
  have key : ∀ ys : List (Any O), (∀ y ∈ ys, y ∈ xs) →
      Total d dom.length (storeAll h (dom.length + 1) ys) := by
    intro ys
    induction ys with
    | nil => intro _; exact total_emit []
    | cons y ys ih =>
      intro hy
      refine total_seq (total_val (monoP_obj h _) hobj y.1 y.2 (hx y (hy y (by simp))) ?_)
        (monoP_val (monoP_obj h _) _ _) (ih fun z hz => hy z (by simp [hz]))
      intro a ha
      exact (hd a).2 (Reach.base (List.mem_flatMap.2 ⟨y, hy y (by simp), ha⟩))
  refine key xs (fun y hy => hy) SP.init ?_
  unfold unseen
  exact Nat.le_trans (List.length_filter_le _ _) (List.length_filter_le _ _)

end

/-! ## Examples -/

/-- An encoding for the remaining variants: a number, as four bytes after its type. -/
def numVar : Other where
  T := UInt16
  put x := putBE 2 x.toNat
  get bs := (getBE 2 bs).map fun p => (UInt16.ofNat p.1, p.2)
  ty _ := 2

theorem numVar_lawful : numVar.Lawful := by
  refine ⟨?_, fun _ => ⟨(by decide : 2 < 2 ^ 32), (by decide : 2 ∉ [8, 9, 10, 11])⟩⟩
  intro x r
  have hx : x.toNat < 256 ^ 2 := x.toNat_lt
  simp only [numVar]
  rw [getBE_putBE _ _ _ hx]
  simp only [Option.map_some]
  exact congrArg some (Prod.ext (UInt16.ofNat_toNat (x := x)) rfl)

/-- Class 0: a string and a pointer to a class 0 object (a node of a linked list); class 1: a set of
pointers. -/
def exClasses : Nat → Ty
  | 0 => .pair .str (.ptr false 0)
  | _ => .list (.poly false)

/-- Objects 0 and 1 point to each other, 2 points to 0, 1, 0. -/
def exHeap : Heap numVar exClasses where
  cls a := if a = 2 then 1 else 0
  get
    | 0 => ((some [97], some 1) : QStr × Option Nat)
    | 1 => ((some [97], some 0) : QStr × Option Nat)
    | 2 => ([some 0, some 1, some 0] : List (Option Nat))
    | _ + 3 => ((none, none) : QStr × Option Nat)

def exVals : List (Any numVar) :=
  [⟨.ptr false 1, (some 2 : Option Nat)⟩, ⟨.ptr false 0, (some 1 : Option Nat)⟩,
   ⟨.strs, ([some [97], some [98]] : List QStr)⟩, ⟨.strs, ([some [97], some [98]] : List QStr)⟩,
   ⟨.var, (.list (.cons (.str (some [98])) (.cons (.oth (7 : UInt16)) .nil)) : Var numVar)⟩]

theorem exHeap_ok : ∀ a, ValOk exHeap.cls (fun _ => false) (exClasses (exHeap.cls a)) (exHeap.get a)
  | 0 => ⟨show 2 * 1 < 0xfffffffe by decide, fun a h => by cases h; exact ⟨rfl, rfl⟩⟩
  | 1 => ⟨show 2 * 1 < 0xfffffffe by decide, fun a h => by cases h; exact ⟨rfl, rfl⟩⟩
  | 2 => by
    refine ⟨show 3 < 2 ^ 31 by decide, ?_⟩
    intro v hv
    have hv : v = some 0 ∨ v = some 1 ∨ v = some 0 ∨ False :=
      (List.mem_cons.1 hv).imp_right fun hv => (List.mem_cons.1 hv).imp_right fun hv =>
        (List.mem_cons.1 hv).imp_right fun hv => nomatch hv
    rcases hv with rfl | rfl | rfl | hv
    · exact ⟨0, rfl, rfl, by decide⟩
    · exact ⟨1, rfl, rfl, by decide⟩
    · exact ⟨0, rfl, rfl, by decide⟩
    · exact hv.elim
  | _ + 3 => ⟨trivial, fun a h => by cases h⟩

theorem exVals_ok : ∀ x ∈ exVals, ValOk exHeap.cls (fun _ => false) x.1 x.2 := by
  intro x hx
  simp only [exVals, List.mem_cons, List.not_mem_nil, or_false] at hx
  rcases hx with rfl | rfl | rfl | rfl | rfl
  · intro a h; cases h; exact ⟨rfl, rfl⟩
  · intro a h; cases h; exact ⟨rfl, rfl⟩
  · refine ⟨by decide, ?_⟩
    intro s hs
    simp only [List.mem_cons, List.not_mem_nil, or_false] at hs
    rcases hs with rfl | rfl <;> exact ⟨by show 2 * 1 < 0xfffffffe; decide, by simp⟩
  · refine ⟨by decide, ?_⟩
    intro s hs
    simp only [List.mem_cons, List.not_mem_nil, or_false] at hs
    rcases hs with rfl | rfl <;> exact ⟨by show 2 * 1 < 0xfffffffe; decide, by simp⟩
  · exact ⟨by decide, ⟨show 2 * 1 < 0xfffffffe by decide, trivial, trivial⟩⟩

/-- The cyclic example is stored, and all hypotheses of the round trip theorem are met. -/
example : ∃ b P, storeAll exHeap 4 exVals SP.init = some (b, P) ∧ Fits P ∧
    P.objs = [(1, 2), (0, 1), (2, 0)] := by
  refine ⟨_, _, rfl, ?_, rfl⟩
  refine ⟨?_, ?_, ?_, ?_⟩ <;> decide +kernel

/-! ## Findings -/

/-- C10 fails for null strings in lists: string lists are looked up in a `QHash` whose equality does
not distinguish null and empty strings, so after the list `[""]` the list `[null]` is written as a
reference to it (persistence.h:306-314) and loads as `[""]`. -/
theorem C10_null_in_list_lost :
    let p0 : VP := SP.init.v
    let (b1, p1) := storeStrs [some []] p0
    let (b2, _) := storeStrs [none] p1
    (match loadStrs (b1 ++ b2) ⟨[], [], []⟩ with
      | some (x, r, L) => (loadStrs r L).map fun y => (x, y.1, y.2.1)
      | none => none) = some ([some []], [some []], []) := by decide +kernel

set_option maxRecDepth 100000 in
/-- C11 needs objects to be referenced in one way only: there is one table of stored objects, but
separate tables for objects loaded via shared and via plain pointers.  An object of class `Bool`
stored through a plain and then a shared pointer: the reader of the second one takes the bytes that
follow for the contents of a new object. -/
theorem C11_mixed_pointers_break_identity :
    let h : Heap numVar (fun _ => .bool) := ⟨fun _ => 0, fun _ => (true : Bool)⟩
    let xs : List (Any numVar) :=
      [⟨.ptr false 0, (some 0 : Option Nat)⟩, ⟨.ptr true 0, (some 0 : Option Nat)⟩,
       ⟨.int 1 false, (0 : Int)⟩]
    ∃ b P, storeAll h 1 xs SP.init = some (b, P) ∧
      loadAll b.length (xs.map (·.1)) b (LP.init numVar fun _ => .bool) = none ∧
      ∃ L, loadAll b.length ((xs.take 2).map (·.1)) b (LP.init numVar fun _ => .bool) =
        some ([⟨.ptr false 0, (some 0 : Option Nat)⟩, ⟨.ptr true 0, (some 1 : Option Nat)⟩], [], L) := by
  exact ⟨_, _, rfl, rfl, _, rfl⟩

end Verif.Persist
