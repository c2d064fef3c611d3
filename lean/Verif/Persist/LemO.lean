import Verif.Persist.LemV

/-! # Round trips of object graphs -/

namespace Verif.Persist

open Verif.DS

/-! ## The writer only adds to its tables -/

structure Mono (p q : SP) : Prop where
  objs : ∀ x ∈ p.objs, x ∈ q.objs
  last : p.last ≤ q.last
  v : MonoV p.v q.v

theorem Mono.refl (p : SP) : Mono p p := ⟨fun _ h => h, Nat.le_refl _, MonoV.refl _⟩

theorem Mono.trans {p q r : SP} (h : Mono p q) (k : Mono q r) : Mono p r :=
  ⟨fun x hx => k.objs x (h.objs x hx), Nat.le_trans h.last k.last, h.v.trans k.v⟩

theorem Fits.mono {p q : SP} (h : Mono p q) (k : Fits q) : Fits p :=
  ⟨Nat.lt_of_le_of_lt h.last k.1, FitsV.mono h.v k.2⟩

def MonoP (f : Put) : Prop := ∀ p b q, f p = some (b, q) → Mono p q

theorem monoP_emit (b : Bytes) : MonoP (emit b) := by
  intro p b' q h
  simp only [emit, Option.some.injEq, Prod.mk.injEq] at h
  rw [← h.2]; exact Mono.refl _

theorem seq_some {f g : Put} {p q : SP} {b : Bytes} (h : f.seq g p = some (b, q)) :
    ∃ b1 p1 b2, f p = some (b1, p1) ∧ g p1 = some (b2, q) ∧ b = b1 ++ b2 := by
  unfold Put.seq at h
  cases h1 : f p with
  | none => simp [h1] at h
  | some x =>
    obtain ⟨b1, p1⟩ := x
    simp only [h1] at h
    cases h2 : g p1 with
    | none => simp [h2] at h
    | some y =>
      obtain ⟨b2, p2⟩ := y
      simp only [h2, Option.some.injEq, Prod.mk.injEq] at h
      exact ⟨b1, p1, b2, rfl, by rw [h2, h.2], h.1.symm⟩

theorem monoP_seq {f g : Put} (hf : MonoP f) (hg : MonoP g) : MonoP (f.seq g) := by
  intro p b q h
  obtain ⟨b1, p1, b2, h1, h2, _⟩ := seq_some h
  exact (hf _ _ _ h1).trans (hg _ _ _ h2)

theorem monoP_onV {f : VP → Bytes × VP} (hf : ∀ p, MonoV p (f p).2) : MonoP (onV f) := by
  intro p b q h
  simp only [onV, Option.some.injEq, Prod.mk.injEq] at h
  rw [← h.2]
  exact ⟨fun _ h => h, Nat.le_refl _, hf p.v⟩

theorem monoP_str (s : QStr) : MonoP (onS (storeStr s)) :=
  monoP_onV fun p => onS_mono (storeStr_mono s p.s)

theorem monoP_putSeq {α : Type} {f : α → Put} (l : List α) (h : ∀ a ∈ l, MonoP (f a)) :
    MonoP (putSeq f l) := by
  induction l with
  | nil => exact monoP_emit []
  | cons a as ih =>
    exact monoP_seq (h a (by simp)) (ih fun b hb => h b (by simp [hb]))

theorem monoP_none : MonoP (fun _ => none) := by intro p b q h; simp at h

theorem monoP_val {O : Other} {cls : Nat → Nat} {so : Nat → Put} (hso : ∀ a, MonoP (so a)) :
    (t : Ty) → (v : Val O t) → MonoP (storeVal cls so t v) := by
  intro t
  induction t with
  | bool => intro v; exact monoP_emit _
  | int w sg => intro v; exact monoP_emit _
  | str => intro v; exact monoP_str v
  | strs => intro v; exact monoP_onV (storeStrs_mono v)
  | env => intro v; exact monoP_onV (storeEnv_mono v)
  | var => intro v; exact monoP_onV (storeVar_mono v)
  | pair a b iha ihb => intro v; exact monoP_seq (iha v.1) (ihb v.2)
  | list a ih => intro v; exact monoP_seq (monoP_emit _) (monoP_putSeq _ fun x _ => ih x)
  | map a ih =>
    intro v
    exact monoP_seq (monoP_emit _) (monoP_putSeq _ fun x _ => monoP_seq (monoP_str _) (ih x.2))
  | umap a ih =>
    intro v
    exact monoP_seq (monoP_emit _) (monoP_putSeq _ fun x _ => monoP_seq (monoP_str _) (ih x.2))
  | opt a ih =>
    intro v
    cases v with
    | none => exact monoP_emit _
    | some v => exact monoP_seq (monoP_emit _) (ih v)
  | ptr sh c =>
    intro v
    cases v with
    | none => exact monoP_emit _
    | some a => exact hso a
  | poly sh =>
    intro v
    cases v with
    | none => exact monoP_none
    | some a => exact monoP_seq (monoP_emit _) (hso a)

section
variable {O : Other} {classes : Nat → Ty}

/-- What `storeObj` does, in its two cases. -/
theorem storeObj_cases {h : Heap O classes} {f a : Nat} {p q : SP} {b : Bytes}
    (hs : storeObj h (f + 1) a p = some (b, q)) :
    (∃ id, (a, id) ∈ p.objs ∧ b = putI32 id ∧ q = p) ∨
    ((∀ id, (a, id) ∉ p.objs) ∧ ∃ b', b = putI32 p.last ++ b' ∧
      storeVal h.cls (storeObj h f) (classes (h.cls a)) (h.get a)
        { p with objs := (a, p.last) :: p.objs, last := p.last + 1 } = some (b', q)) := by
  simp only [storeObj] at hs
  cases hf : p.objs.find? (fun x => x.1 == a) with
  | some x =>
    obtain ⟨a', id⟩ := x
    have h1 := List.mem_of_find?_eq_some hf
    have h2 := List.find?_some hf
    simp only [beq_iff_eq] at h2
    subst h2
    simp only [hf, Option.some.injEq, Prod.mk.injEq] at hs
    exact Or.inl ⟨id, h1, hs.1.symm, hs.2.symm⟩
  | none =>
    simp only [hf] at hs
    refine Or.inr ⟨?_, ?_⟩
    · intro id hid
      have := List.find?_eq_none.1 hf (a, id) hid
      simp at this
    · cases hv : storeVal h.cls (storeObj h f) (classes (h.cls a)) (h.get a)
        { p with objs := (a, p.last) :: p.objs, last := p.last + 1 } with
      | none => simp [hv] at hs
      | some y =>
        obtain ⟨b', q'⟩ := y
        simp only [hv, Option.some.injEq, Prod.mk.injEq] at hs
        exact ⟨b', hs.1.symm, by rw [hs.2]⟩

theorem monoP_obj (h : Heap O classes) (f a : Nat) : MonoP (storeObj h f a) := by
  induction f generalizing a with
  | zero => exact monoP_none
  | succ f ih =>
    intro p b q hs
    rcases storeObj_cases hs with ⟨_, _, _, rfl⟩ | ⟨_, b', _, hv⟩
    · exact Mono.refl _
    · have := monoP_val ih _ _ _ _ _ hv
      exact ⟨fun x hx => this.objs x (by simp [hx]), Nat.le_trans (Nat.le_succ _) this.last, this.v⟩

/-! ## The reader follows the writer -/

def Agrees (φ : Nat → Nat) (p : SP) : Prop := ∀ a i, (a, i) ∈ p.objs → φ a = i

theorem Agrees.mono {φ : Nat → Nat} {p q : SP} (h : Mono p q) (k : Agrees φ q) : Agrees φ p :=
  fun a i ha => k a i (h.objs _ ha)

/-- The reader's table for a kind of pointer. -/
def LP.tab (L : LP O classes) (sh : Bool) : List (Option Nat) := if sh then L.shared else L.raw

/-- The reader's state agrees with the writer's; `Q` are the objects being written. -/
structure Sim (h : Heap O classes) (shared : Nat → Bool) (φ : Nat → Nat) (Q : List Nat)
    (p : SP) (L : LP O classes) : Prop where
  v : VSim p.v L.v
  next : L.next = p.last
  len : ∀ sh, (L.tab sh).length ≤ p.last
  lt : ∀ a i, (a, i) ∈ p.objs → i < p.last
  inj : ∀ a b i, (a, i) ∈ p.objs → (b, i) ∈ p.objs → a = b
  tab : ∀ a i, (a, i) ∈ p.objs → (L.tab (shared a))[i]? = some (some i)
  heap : ∀ a i, (a, i) ∈ p.objs → a ∉ Q →
    L.heap i = some ⟨h.cls a, mapPtr φ (classes (h.cls a)) (h.get a)⟩
  fresh : ∀ i, p.last ≤ i → L.heap i = none

variable (h : Heap O classes) (shared : Nat → Bool) (φ : Nat → Nat)

/-- What `put` writes, `get` reads as `a`. -/
def Codes {α : Type} (put : Put) (get : Nat → Get O classes α) (a : α) : Prop :=
  ∀ Q p b q, put p = some (b, q) → ∀ L, Sim h shared φ Q p L → Agrees φ q → Fits q →
    ∀ r F, b.length ≤ F → ∃ L', get F (b ++ r) L = some (a, r, L') ∧ Sim h shared φ Q q L'

variable {h shared φ}

theorem Codes.bind {α β : Type} {p1 p2 : Put} {g1 : Nat → Get O classes α}
    {g2 : α → Nat → Get O classes β} {a : α} {b : β} (h1 : Codes h shared φ p1 g1 a)
    (m2 : MonoP p2) (h2 : Codes h shared φ p2 (g2 a) b) :
    Codes h shared φ (p1.seq p2) (fun F => (g1 F).bind fun x => g2 x F) b := by
  intro Q p bb q hp L hs ha hf r F hF
  obtain ⟨b1, q1, b2, e1, e2, rfl⟩ := seq_some hp
  have hm := m2 _ _ _ e2
  simp only [List.length_append] at hF
  obtain ⟨L1, l1, s1⟩ := h1 Q p b1 q1 e1 L hs (ha.mono hm) (hf.mono hm) (b2 ++ r) F (by omega)
  obtain ⟨L2, l2, s2⟩ := h2 Q q1 b2 q e2 L1 s1 ha hf r F (by omega)
  refine ⟨L2, ?_, s2⟩
  simp only [Get.bind, List.append_assoc, l1, l2]

theorem Codes.ret {α β : Type} {p : Put} {g : Nat → Get O classes α} {a : α}
    (h1 : Codes h shared φ p g a) (k : α → β) :
    Codes h shared φ p (fun F => (g F).bind fun x => Persist.ret (k x)) (k a) := by
  intro Q p b q hp L hs ha hf r F hF
  obtain ⟨L1, l1, s1⟩ := h1 Q p b q hp L hs ha hf r F hF
  refine ⟨L1, ?_, s1⟩
  simp only [Get.bind, l1, Persist.ret]

theorem codes_emit {α : Type} {b : Bytes} {g : Bytes → Option (α × Bytes)} {a : α}
    (hg : ∀ r, g (b ++ r) = some (a, r)) : Codes h shared φ (emit b) (fun _ => raw g) a := by
  intro Q p b' q hp L hs _ _ r F _
  simp only [emit, Option.some.injEq, Prod.mk.injEq] at hp
  obtain ⟨rfl, rfl⟩ := hp
  exact ⟨L, by simp only [raw, hg], hs⟩

theorem codes_nil {α : Type} (a : α) : Codes h shared φ (emit []) (fun _ => ret a) a := by
  intro Q p b' q hp L hs _ _ r F _
  simp only [emit, Option.some.injEq, Prod.mk.injEq] at hp
  obtain ⟨rfl, rfl⟩ := hp
  exact ⟨L, rfl, hs⟩

theorem Sim.setV {Q : List Nat} {p : SP} {L : LP O classes} (hs : Sim h shared φ Q p L) {v : VP}
    {w : VL} (hv : VSim v w) : Sim h shared φ Q { p with v := v } { L with v := w } :=
  ⟨hv, hs.next, hs.len, hs.lt, hs.inj, hs.tab, hs.heap, hs.fresh⟩

theorem codes_onV {α : Type} {f : VP → Bytes × VP} {g : Nat → Bytes → VL → Option (α × Bytes × VL)}
    {a : α} (hfg : ∀ p L, VSim p L → FitsV (f p).2 → ∀ r F, (f p).1.length ≤ F →
      ∃ L', g F ((f p).1 ++ r) L = some (a, r, L') ∧ VSim (f p).2 L') :
    Codes h shared φ (onV f) (fun F => onVL (g F)) a := by
  intro Q p b' q hp L hs _ hf r F hF
  simp only [onV, Option.some.injEq, Prod.mk.injEq] at hp
  obtain ⟨rfl, rfl⟩ := hp
  obtain ⟨w, h1, s1⟩ := hfg p.v L.v hs.v hf.2 r F hF
  exact ⟨{ L with v := w }, by simp only [onVL, h1], hs.setV s1⟩

theorem codes_str {s : QStr} (hs : StrOk s) :
    Codes h shared φ (onS (storeStr s)) (fun _ => onSL loadStr) s := by
  unfold onS onSL
  refine codes_onV (g := fun _ => withS loadStr) ?_
  intro p L hv hf r F _
  obtain ⟨l', h1, s1⟩ := rt_str hs hv.s hf.1 r
  exact ⟨{ L with s := l' }, by simp only [withS, h1], hv.setS s1⟩

theorem codes_seq {α β : Type} {f : α → Put} {g : Nat → Get O classes β} {k : α → β} (l : List α)
    (hm : ∀ a ∈ l, MonoP (f a)) (hc : ∀ a ∈ l, Codes h shared φ (f a) g (k a)) :
    Codes h shared φ (putSeq f l) (fun F => getSeq (g F) l.length) (l.map k) := by
  induction l with
  | nil => exact codes_nil []
  | cons a as ih =>
    refine Codes.bind (hc a (by simp)) (monoP_putSeq as fun b hb => hm b (by simp [hb]))
      (g2 := fun x F => (getSeq (g F) as.length).bind fun xs => ret (x :: xs)) ?_
    exact Codes.ret (ih (fun b hb => hm b (by simp [hb])) fun b hb => hc b (by simp [hb])) _

theorem toU_lt' {w : Nat} (i : Int) : toU (8 * w) i < 256 ^ w := by
  have e : (256 : Nat) ^ w = 2 ^ (8 * w) := by rw [Nat.pow_mul]
  unfold toU
  rw [e]
  have hpos : (0 : Int) < (2 ^ (8 * w) : Nat) := by
    have := Nat.pow_pos (n := 8 * w) (show 0 < 2 by omega); omega
  have h1 := Int.emod_nonneg i (Int.ne_of_gt hpos)
  have h2 := Int.emod_lt_of_pos i hpos
  omega

theorem int_rt {w : Nat} {sg : Bool} {i : Int} (hw : 0 < w)
    (hi : if sg then -(2 ^ (8 * w - 1) : Nat) ≤ i ∧ i < (2 ^ (8 * w - 1) : Nat)
      else 0 ≤ i ∧ i < (2 ^ (8 * w) : Nat)) :
    (if sg then toS (8 * w) (toU (8 * w) i) else ((toU (8 * w) i : Nat) : Int)) = i := by
  have e : (2 : Nat) ^ (8 * w) = 2 * 2 ^ (8 * w - 1) := by
    rw [← Nat.pow_succ']; congr 1; omega
  cases sg with
  | false =>
    simp only [Bool.false_eq_true, if_false] at hi ⊢
    unfold toU
    rw [Int.emod_eq_of_lt hi.1 hi.2]
    omega
  | true =>
    simp only [if_true] at hi ⊢
    unfold toS toU
    rw [e]
    generalize (2 : Nat) ^ (8 * w - 1) = m at hi ⊢
    by_cases hn : 0 ≤ i
    · rw [Int.emod_eq_of_lt hn (by omega)]
      rw [if_pos (by omega)]; omega
    · have : i % ((2 * m : Nat) : Int) = i + (2 * m : Nat) := by
        rw [← Int.add_emod_right, Int.emod_eq_of_lt (by omega) (by omega)]
      rw [this]
      rw [if_neg (by omega)]; omega

theorem codes_ptr_null {sh : Bool} {c : Nat} :
    Codes h shared φ (emit (putI32 (-1))) (fun F => loadPtr F sh c) none := by
  intro Q p b' q hp L hs _ _ r F hF
  simp only [emit, Option.some.injEq, Prod.mk.injEq] at hp
  obtain ⟨rfl, rfl⟩ := hp
  simp only [putI32, putBE_length] at hF
  obtain ⟨F, rfl⟩ : ∃ F', F = F' + 1 := ⟨F - 1, by omega⟩
  refine ⟨L, ?_, hs⟩
  simp only [loadPtr]
  rw [getI32_putI32 (by decide)]
  simp

theorem codes_val (hO : O.Lawful) {so : Nat → Put} (hm : ∀ a, MonoP (so a))
    (hso : ∀ a, Codes h shared φ (so a) (fun F => loadPtr F (shared a) (h.cls a)) (some (φ a))) :
    (t : Ty) → (v : Val O t) → ValOk h.cls shared t v →
    Codes h shared φ (storeVal h.cls so t v) (fun F => loadVal F (loadPtr F) t) (mapPtr φ t v) := by
  intro t
  have mv := fun t v => monoP_val (O := O) (cls := h.cls) hm t v
  induction t with
  | bool =>
    intro v _
    have : Codes h shared φ (emit (putU8 (if (show Bool from v) then 1 else 0)))
        (fun _ => raw getU8) (if (show Bool from v) then 1 else 0) :=
      codes_emit fun r => getU8_putU8 (by cases (show Bool from v) <;> decide) r
    have h2 := Codes.ret this (fun n => (show Bool from n != 0))
    have e : ∀ v : Val O .bool, mapPtr φ .bool v =
        (show Bool from ((if (show Bool from v) then 1 else 0 : Nat) != 0)) := by
      intro v; cases v <;> rfl
    rw [e]; exact h2
  | int w sg =>
    intro v hv
    obtain ⟨hw, hi⟩ := hv
    have : Codes h shared φ (emit (putBE w (toU (8 * w) v)))
        (fun _ => raw (getBE w)) (toU (8 * w) v) :=
      codes_emit fun r => getBE_putBE _ _ r (toU_lt' v)
    have h2 := Codes.ret this (fun n => (show Int from if sg then toS (8 * w) n else n))
    have e : (mapPtr φ (.int w sg) v : Val O (.int w sg)) =
        (show Int from if sg then toS (8 * w) (toU (8 * w) v) else (toU (8 * w) v : Nat)) :=
      (int_rt hw hi).symm
    rw [e]; exact h2
  | str => intro v hv; exact codes_str hv
  | strs =>
    intro v hv
    refine codes_onV (g := fun _ => loadStrs) ?_
    intro p L hs hf r F _
    obtain ⟨L', h1, s1, _⟩ := rt_strs hv hs hf r
    exact ⟨L', h1, s1⟩
  | env =>
    intro v hv
    refine codes_onV (g := fun _ => loadEnv) ?_
    intro p L hs hf r F _
    exact rt_env hv hs hf r
  | var =>
    intro v hv
    exact codes_onV (g := fun F => loadVar F) fun p L hs hf r F hF => rt_var hO v hv hs hf r F hF
  | pair a b iha ihb =>
    intro v hv
    refine Codes.bind (iha v.1 hv.1) (mv b v.2)
      (g2 := fun x F => (loadVal F (loadPtr F) b).bind fun y => ret (x, y)) ?_
    exact Codes.ret (ihb v.2 hv.2) _
  | list a ih =>
    intro v hv
    obtain ⟨hl, hv⟩ := hv
    have hn := codes_emit (h := h) (shared := shared) (φ := φ) (g := getI32)
      (getI32_putI32 (isI32_nat hl))
    refine Codes.bind hn (monoP_putSeq _ fun x _ => mv a x)
      (g2 := fun n F => getSeq (loadVal F (loadPtr F) a) n.toNat) ?_
    simp only [Int.toNat_natCast]
    exact codes_seq _ (fun x _ => mv a x) fun x hx => ih x (hv x hx)
  | map a ih =>
    intro (v : List (QStr × Val O a)) hv
    obtain ⟨hk, hv⟩ := hv
    have hl := hk.1
    rw [List.length_map] at hl
    have hn := codes_emit (h := h) (shared := shared) (φ := φ) (g := getI32)
      (getI32_putI32 (isI32_nat hl))
    have hmm : ∀ x ∈ (show List (QStr × Val O a) from v), MonoP
        ((fun kv : QStr × Val O a => (onS (storeStr kv.1)).seq (storeVal h.cls so a kv.2)) x) :=
      fun x _ => monoP_seq (monoP_str _) (mv a x.2)
    refine Codes.bind hn (monoP_putSeq _ hmm)
      (g2 := fun n F => (getSeq ((onSL loadStr).bind fun k =>
        (loadVal F (loadPtr F) a).bind fun v => ret (k, v)) n.toNat).bind
          fun l => ret (build insertKV l)) ?_
    simp only [Int.toNat_natCast]
    have hb : mapPtr φ (.map a) v =
        build insertKV ((show List (QStr × Val O a) from v).map fun kv => (kv.1, mapPtr φ a kv.2)) := by
      rw [build_eq (fun k v m => insertKV_new)]
      · rfl
      · rw [List.map_map]; exact hk.2.2
    rw [hb]
    refine Codes.ret (codes_seq _ hmm fun x hx => ?_) _
    refine Codes.bind (codes_str (hk.2.1 _ (List.mem_map_of_mem hx))) (mv a x.2)
      (g2 := fun k F => (loadVal F (loadPtr F) a).bind fun v => ret (k, v)) ?_
    exact Codes.ret (ih x.2 (hv x hx)) _
  | umap a ih =>
    intro (v : List (QStr × Val O a)) hv
    obtain ⟨hk, hv⟩ := hv
    have hl := hk.1
    rw [List.length_map] at hl
    have hn := codes_emit (h := h) (shared := shared) (φ := φ) (g := getBE 4)
      (getBE4 (show v.length < 2 ^ 32 by omega))
    have hmm : ∀ x ∈ (show List (QStr × Val O a) from v), MonoP
        ((fun kv : QStr × Val O a => (onS (storeStr kv.1)).seq (storeVal h.cls so a kv.2)) x) :=
      fun x _ => monoP_seq (monoP_str _) (mv a x.2)
    refine Codes.bind hn (monoP_putSeq _ hmm)
      (g2 := fun n F => (getSeq ((onSL loadStr).bind fun k =>
        (loadVal F (loadPtr F) a).bind fun v => ret (k, v)) n).bind
          fun l => ret (build insertKeep l)) ?_
    have hb : mapPtr φ (.umap a) v =
        build insertKeep ((show List (QStr × Val O a) from v).map fun kv => (kv.1, mapPtr φ a kv.2)) := by
      rw [build_eq (fun k v m => insertKeep_new)]
      · rfl
      · rw [List.map_map]; exact hk.2.2
    rw [hb]
    refine Codes.ret (codes_seq _ hmm fun x hx => ?_) _
    refine Codes.bind (codes_str (hk.2.1 _ (List.mem_map_of_mem hx))) (mv a x.2)
      (g2 := fun k F => (loadVal F (loadPtr F) a).bind fun v => ret (k, v)) ?_
    exact Codes.ret (ih x.2 (hv x hx)) _
  | opt a ih =>
    intro v hv
    cases v with
    | none =>
      have hn := codes_emit (h := h) (shared := shared) (φ := φ) (g := getI32)
        (getI32_putI32 (x := -1) (by decide))
      intro Q p b q hp L hs ha hf r F hF
      obtain ⟨L', h1, s1⟩ := hn Q p b q hp L hs ha hf r F hF
      refine ⟨L', ?_, s1⟩
      simp only [loadVal, Get.bind, h1]
      rfl
    | some v =>
      have hn := codes_emit (h := h) (shared := shared) (φ := φ) (g := getI32)
        (getI32_putI32 (x := -2) (by decide))
      refine Codes.bind hn (mv a v) (g2 := fun m F =>
        if m = -2 then (loadVal F (loadPtr F) a).bind fun v => ret (some v) else ret none) ?_
      simp only [if_true]
      exact Codes.ret (ih v (hv v rfl)) _
  | ptr sh c =>
    intro v hv
    cases v with
    | none => exact codes_ptr_null
    | some a =>
      obtain ⟨rfl, rfl⟩ := hv a rfl
      exact hso a
  | poly sh =>
    intro v hv
    obtain ⟨a, rfl, rfl, hc⟩ := hv
    have hn := codes_emit (h := h) (shared := shared) (φ := φ) (g := getU8) (getU8_putU8 hc)
    exact Codes.bind hn (hm a) (g2 := fun c F => loadPtr F (shared a) c) (hso a)

theorem grow_get {α : Type} (d v : α) (l : List α) (n : Nat) (hn : l.length ≤ n) :
    ((grow d l (n + 1)).set n v).length = n + 1 ∧ ((grow d l (n + 1)).set n v)[n]? = some v ∧
    ∀ (i : Nat) x, l[i]? = some x → ((grow d l (n + 1)).set n v)[i]? = some x := by
  have hlen : (grow d l (n + 1)).length = n + 1 := by simp [grow]; omega
  refine ⟨by simp [hlen], by simp [hlen], ?_⟩
  intro i x hi
  have hlt := (List.getElem?_eq_some_iff.1 hi).1
  rw [List.getElem?_set_ne (by omega)]
  unfold grow
  rw [List.getElem?_append_left hlt]
  exact hi

theorem codes_obj (hO : O.Lawful) (hok : ∀ a, ValOk h.cls shared (classes (h.cls a)) (h.get a))
    (f a : Nat) :
    Codes h shared φ (storeObj h f a) (fun F => loadPtr F (shared a) (h.cls a)) (some (φ a)) := by
  induction f generalizing a with
  | zero => intro Q p b q hp; simp [storeObj] at hp
  | succ f ih =>
    intro Q p b q hp L hs ha hf r F hF
    rcases storeObj_cases hp with ⟨id, hid, rfl, rfl⟩ | ⟨hnew, b', rfl, hv⟩
    · simp only [putI32, putBE_length] at hF
      obtain ⟨F, rfl⟩ : ∃ F', F = F' + 1 := ⟨F - 1, by omega⟩
      have hlt := hs.lt a id hid
      have hf1 := hf.1
      have ht := hs.tab a id hid
      have htl := (List.getElem?_eq_some_iff.1 ht).1
      refine ⟨L, ?_, hs⟩
      simp only [loadPtr]
      rw [getI32_putI32 (isI32_nat (by omega))]
      simp only [Int.toNat_natCast]
      rw [if_neg (by omega)]
      unfold LP.tab at ht htl
      rw [if_pos htl, ht, ha a id hid]
      rfl
    · have hm := monoP_val (monoP_obj h f) _ _ _ _ _ hv
      have hf1 := (hf.mono hm).1
      simp only at hf1
      have hφ : φ a = p.last := ha a p.last (hm.objs _ (by simp))
      simp only [List.length_append, putI32, putBE_length] at hF
      obtain ⟨F, rfl⟩ : ∃ F', F = F' + 1 := ⟨F - 1, by omega⟩
      have hlen := hs.len (shared a)
      obtain ⟨g1, g2, g3⟩ := grow_get none (some p.last) (L.tab (shared a)) p.last hlen
      let tab' := (grow none (L.tab (shared a)) (p.last + 1)).set p.last (some p.last)
      let L1 : LP O classes := { L with
            next := p.last + 1
            shared := if shared a then tab' else L.shared
            raw := if shared a then L.raw else tab' }
      have htab : ∀ sh, L1.tab sh = if sh = shared a then tab' else L.tab sh := by
        intro sh
        cases sh <;> cases hsa : shared a <;> simp [LP.tab, L1, hsa]
      have s1 : Sim h shared φ (a :: Q)
          { p with objs := (a, p.last) :: p.objs, last := p.last + 1 } L1 := by
        refine ⟨hs.v, rfl, ?_, ?_, ?_, ?_, ?_, ?_⟩
        · intro sh
          rw [htab]
          split
          · exact Nat.le_of_eq g1
          · exact Nat.le_succ_of_le (hs.len sh)
        · intro x i hx
          simp only [List.mem_cons, Prod.mk.injEq] at hx
          rcases hx with ⟨_, rfl⟩ | hx
          · exact Nat.lt_succ_self _
          · exact Nat.lt_succ_of_lt (hs.lt x i hx)
        · intro x y i hx hy
          simp only [List.mem_cons, Prod.mk.injEq] at hx hy
          rcases hx with ⟨rfl, rfl⟩ | hx
          · rcases hy with ⟨rfl, _⟩ | hy
            · rfl
            · exact absurd (hs.lt y _ hy) (Nat.lt_irrefl _)
          · rcases hy with ⟨rfl, rfl⟩ | hy
            · exact absurd (hs.lt x _ hx) (Nat.lt_irrefl _)
            · exact hs.inj x y i hx hy
        · intro x i hx
          simp only [List.mem_cons, Prod.mk.injEq] at hx
          rw [htab]
          rcases hx with ⟨rfl, rfl⟩ | hx
          · rw [if_pos rfl]; exact g2
          · split
            · rename_i he
              have := hs.tab x i hx
              rw [he] at this
              exact g3 i _ this
            · exact hs.tab x i hx
        · intro x i hx hq
          simp only [List.mem_cons, Prod.mk.injEq, not_or] at hx hq
          rcases hx with ⟨rfl, _⟩ | hx
          · exact absurd rfl hq.1
          · exact hs.heap x i hx hq.2
        · intro i hi
          exact hs.fresh i (by simp only at hi; omega)
      obtain ⟨L2, l2, s2⟩ := codes_val hO (monoP_obj h f) ih _ _ (hok a) (a :: Q) _ _ _ hv L1 s1 ha hf
        r F (by omega)
      simp only at l2
      let hp : Nat → Option ((c : Nat) × Val O (classes c)) := fun i =>
        if i = p.last then some ⟨h.cls a, mapPtr φ (classes (h.cls a)) (h.get a)⟩ else L2.heap i
      refine ⟨{ L2 with heap := hp }, ?_, ?_⟩
      · simp only [loadPtr, List.append_assoc]
        rw [getI32_putI32 (isI32_nat (by omega))]
        simp only [Int.toNat_natCast]
        rw [if_neg (by omega)]
        unfold LP.tab at hlen
        rw [if_neg (by omega)]
        simp only [hs.next]
        rw [show ({ v := L.v
                    raw := if shared a = true then L.raw
                      else (grow none (if shared a = true then L.shared else L.raw)
                        (p.last + 1)).set p.last (some p.last)
                    shared := if shared a = true then
                      (grow none (if shared a = true then L.shared else L.raw)
                        (p.last + 1)).set p.last (some p.last) else L.shared
                    heap := L.heap, next := p.last + 1 } : LP O classes) = L1 from rfl, l2]
        simp only [hφ]
        rfl
      · refine ⟨s2.v, s2.next, s2.len, s2.lt, s2.inj, s2.tab, ?_, ?_⟩
        · intro x i hx hq
          by_cases hxa : x = a
          · subst hxa
            have : i = p.last := by rw [← ha x i hx, hφ]
            simp only [hp, this, if_true]
          · have hne : i ≠ p.last := by
              intro hi
              subst hi
              exact hxa (s2.inj x a _ hx (hm.objs _ (by simp)))
            simp only [hp, if_neg hne]
            exact s2.heap x i hx (by simp [hxa, hq])
        · intro i hi
          have := s2.lt a p.last (hm.objs _ (by simp))
          simp only [hp, if_neg (show i ≠ p.last by omega)]
          exact s2.fresh i hi

end

end Verif.Persist
