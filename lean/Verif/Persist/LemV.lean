import Verif.Persist.Spec

/-! # Round trips of the interned values and of variants -/

namespace Verif.Persist

open Verif.DS

/-- The reader's table agrees with the writer's. -/
def TabSim {α : Type} (t : Tab α) (l : List α) : Prop :=
  l.length = t.last ∧ ∀ v i, (v, i) ∈ t.m → l[i]? = some v

theorem TabSim.lt {α : Type} {t : Tab α} {l : List α} (h : TabSim t l) {v i} (hm : (v, i) ∈ t.m) :
    i < t.last := by
  have := h.2 v i hm
  have := List.getElem?_eq_some_iff.1 this
  obtain ⟨hlt, _⟩ := this
  rw [← h.1]; exact hlt

theorem grow_set {α : Type} (d v : α) (l : List α) : (grow d l (l.length + 1)).set l.length v = l ++ [v] := by
  have : l.length + 1 - l.length = 1 := by omega
  simp [grow, this]

theorem TabSim.add {α : Type} {t : Tab α} {l : List α} (h : TabSim t l) (v : α) :
    TabSim (t.add v) (l ++ [v]) := by
  refine ⟨by simp [Tab.add, h.1], ?_⟩
  intro w i hm
  simp only [Tab.add, List.mem_cons, Prod.mk.injEq] at hm
  rcases hm with ⟨rfl, rfl⟩ | hm
  · rw [← h.1]; simp
  · have := h.2 w i hm
    have hlt := (List.getElem?_eq_some_iff.1 this).1
    rw [List.getElem?_append_left hlt]; exact this

theorem find_some {α : Type} {eq : α → α → Bool} {t : Tab α} {v : α} {id : Nat}
    (h : t.find eq v = some id) : ∃ w, (w, id) ∈ t.m ∧ eq w v = true := by
  unfold Tab.find at h
  cases hf : t.m.find? (fun p => eq p.1 v) with
  | none => simp [hf] at h
  | some p =>
    simp only [hf, Option.map_some, Option.some.injEq] at h
    have h1 := List.mem_of_find?_eq_some hf
    have h2 := List.find?_some hf
    exact ⟨p.1, by rw [← h]; exact h1, h2⟩

theorem isI32_nat {n : Nat} (h : n < 2 ^ 31) : IsI32 (n : Int) := by
  unfold IsI32; omega

/-! ## Strings -/

theorem storeStr_mono (s : QStr) (t : Tab QStr) : t.last ≤ (storeStr s t).2.last := by
  unfold storeStr
  cases s with
  | none => exact Nat.le_refl _
  | some us =>
    simp only
    split
    · exact Nat.le_refl _
    · split
      · exact Nat.le_refl _
      · simp [Tab.add]

theorem rt_str {s : QStr} {t : Tab QStr} {l : List QStr} (hs : StrOk s) (hsim : TabSim t l)
    (hf : (storeStr s t).2.last < 2 ^ 31) (r : Bytes) :
    ∃ l', loadStr ((storeStr s t).1 ++ r) l = some (s, r, l') ∧ TabSim (storeStr s t).2 l' := by
  cases s with
  | none =>
    refine ⟨l, ?_, hsim⟩
    simp only [storeStr, loadStr]
    rw [getI32_putI32 (by decide)]
    simp
  | some us =>
    by_cases hu : us = []
    · subst hu
      refine ⟨l, ?_, hsim⟩
      simp only [storeStr, loadStr]
      rw [if_pos trivial, getI32_putI32 (by decide)]
      simp
    · cases hfd : t.find strEq (some us) with
      | some id =>
        have hst : storeStr (some us) t = (putI32 id, t) := by
          simp only [storeStr]; rw [if_neg hu, hfd]
        rw [hst] at hf ⊢
        obtain ⟨w, hw, he⟩ := find_some hfd
        have hweq : w = some us := by
          cases w with
          | none => exact absurd (of_decide_eq_true he).symm hu
          | some ws => exact congrArg some (of_decide_eq_true he)
        subst hweq
        have hlt := hsim.lt hw
        simp only at hf
        refine ⟨l, ?_, hsim⟩
        simp only [loadStr]
        rw [getI32_putI32 (isI32_nat (by omega))]
        simp only
        rw [if_neg (by omega), if_neg (by omega), if_neg (by omega), if_neg (by rw [hsim.1]; omega)]
        simp [hsim.2 _ _ hw]
      | none =>
        have hst : storeStr (some us) t
            = (putI32 t.last ++ putStr (some us), t.add (some us)) := by
          simp only [storeStr]; rw [if_neg hu, hfd]
        rw [hst] at hf ⊢
        simp only [Tab.add] at hf
        refine ⟨l ++ [some us], ?_, hsim.add _⟩
        simp only [loadStr, List.append_assoc]
        rw [getI32_putI32 (isI32_nat (by omega))]
        simp only
        rw [if_neg (by omega), if_neg (by omega), if_neg (by omega),
          if_pos (by rw [hsim.1]; omega), getStr_putStr hs]
        have : ((t.last : Int).toNat) = l.length := by rw [hsim.1]; omega
        simp only [this, grow_set]

theorem storeStrSeq_mono (ss : List QStr) (t : Tab QStr) : t.last ≤ (storeStrSeq ss t).2.last := by
  induction ss generalizing t with
  | nil => exact Nat.le_refl _
  | cons s ss ih =>
    simp only [storeStrSeq]
    exact Nat.le_trans (storeStr_mono s t) (ih _)

theorem rt_strSeq {ss : List QStr} {t : Tab QStr} {l : List QStr} (hs : ∀ s ∈ ss, StrOk s)
    (hsim : TabSim t l) (hf : (storeStrSeq ss t).2.last < 2 ^ 31) (r : Bytes) :
    ∃ l', loadStrSeq ss.length ((storeStrSeq ss t).1 ++ r) l = some (ss, r, l') ∧
      TabSim (storeStrSeq ss t).2 l' := by
  induction ss generalizing t l with
  | nil => exact ⟨l, rfl, hsim⟩
  | cons s ss ih =>
    simp only [storeStrSeq] at hf ⊢
    have hm := storeStrSeq_mono ss (storeStr s t).2
    obtain ⟨l1, h1, s1⟩ := rt_str (s := s) (hs s (by simp)) hsim (by omega)
      ((storeStrSeq ss (storeStr s t).2).1 ++ r)
    obtain ⟨l2, h2, s2⟩ := ih (fun x hx => hs x (by simp [hx])) s1 hf
    refine ⟨l2, ?_, s2⟩
    simp only [List.length_cons, loadStrSeq, List.append_assoc, h1, h2]

/-! ## The three tables -/

structure VSim (p : VP) (L : VL) : Prop where
  s : TabSim p.s L.s
  l : TabSim p.l L.l
  e : TabSim p.e L.e
  gl : ∀ v i, (v, i) ∈ p.l.m → GoodStrs v
  ge : ∀ v i, (v, i) ∈ p.e.m → EnvOk v

def FitsV (p : VP) : Prop := p.s.last < 2 ^ 31 ∧ p.l.last < 2 ^ 31 ∧ p.e.last < 2 ^ 31

def MonoV (p q : VP) : Prop := p.s.last ≤ q.s.last ∧ p.l.last ≤ q.l.last ∧ p.e.last ≤ q.e.last

theorem MonoV.refl (p : VP) : MonoV p p := ⟨Nat.le_refl _, Nat.le_refl _, Nat.le_refl _⟩

theorem MonoV.trans {p q r : VP} (h : MonoV p q) (k : MonoV q r) : MonoV p r :=
  ⟨Nat.le_trans h.1 k.1, Nat.le_trans h.2.1 k.2.1, Nat.le_trans h.2.2 k.2.2⟩

theorem FitsV.mono {p q : VP} (h : MonoV p q) (k : FitsV q) : FitsV p :=
  ⟨Nat.lt_of_le_of_lt h.1 k.1, Nat.lt_of_le_of_lt h.2.1 k.2.1, Nat.lt_of_le_of_lt h.2.2 k.2.2⟩

theorem strEq_eq {a b : QStr} (ha : a ≠ none) (hb : b ≠ none) (h : strEq a b = true) : a = b := by
  cases a with
  | none => exact absurd rfl ha
  | some a =>
    cases b with
    | none => exact absurd rfl hb
    | some b => exact congrArg some (of_decide_eq_true h)

theorem strsEq_eq {a b : List QStr} (ha : ∀ s ∈ a, StrOk s ∧ s ≠ none)
    (hb : ∀ s ∈ b, StrOk s ∧ s ≠ none) (h : strsEq a b = true) : a = b := by
  induction a generalizing b with
  | nil => cases b <;> simp_all [strsEq]
  | cons x xs ih =>
    cases b with
    | nil => simp [strsEq] at h
    | cons y ys =>
      simp only [strsEq, Bool.and_eq_true] at h
      rw [strEq_eq (ha x (by simp)).2 (hb y (by simp)).2 h.1,
        ih (fun s hs => ha s (by simp [hs])) (fun s hs => hb s (by simp [hs])) h.2]

theorem envEq_eq {a b : List (QStr × QStr)} (ha : EnvOk a) (hb : EnvOk b) (h : envEq a b = true) :
    a = b := by
  have key : ∀ (a b : List (QStr × QStr)), (∀ p ∈ a, p.1 ≠ none ∧ p.2 ≠ none) →
      (∀ p ∈ b, p.1 ≠ none ∧ p.2 ≠ none) → envEq a b = true → a = b := by
    intro a
    induction a with
    | nil => intro b _ _ h; cases b <;> simp_all [envEq]
    | cons x xs ih =>
      intro b ha hb h
      cases b with
      | nil => simp [envEq] at h
      | cons y ys =>
        simp only [envEq, Bool.and_eq_true] at h
        have h1 := strEq_eq (ha x (by simp)).1 (hb y (by simp)).1 h.1.1
        have h2 := strEq_eq (ha x (by simp)).2 (hb y (by simp)).2 h.1.2
        rw [ih ys (fun s hs => ha s (by simp [hs])) (fun s hs => hb s (by simp [hs])) h.2]
        rw [Prod.ext h1 h2]
  have g : ∀ {e : List (QStr × QStr)}, EnvOk e → ∀ p ∈ e, p.1 ≠ none ∧ p.2 ≠ none := by
    intro e he p hp
    exact ⟨(he.1.2 p.1 (List.mem_map_of_mem hp)).2, (he.2.1.2 p.2 (List.mem_map_of_mem hp)).2⟩
  exact key a b (g ha) (g hb) h

/-! ## String lists -/

theorem storeStrs_mono (l : List QStr) (p : VP) : MonoV p (storeStrs l p).2 := by
  unfold storeStrs
  split
  · exact MonoV.refl p
  · split
    · exact MonoV.refl p
    · exact ⟨storeStrSeq_mono l p.s, by simp [Tab.add], Nat.le_refl _⟩

theorem rt_strs {l : List QStr} {p : VP} {L : VL} (hl : GoodStrs l) (hsim : VSim p L)
    (hf : FitsV (storeStrs l p).2) (r : Bytes) :
    ∃ L', loadStrs ((storeStrs l p).1 ++ r) L = some (l, r, L') ∧ VSim (storeStrs l p).2 L' ∧
      L'.e = L.e ∧ (storeStrs l p).2.e = p.e := by
  by_cases he : l = []
  · subst he
    refine ⟨L, ?_, by simpa [storeStrs] using hsim, rfl, by simp [storeStrs]⟩
    simp only [storeStrs, loadStrs]
    rw [if_pos trivial, getI32_putI32 (by decide)]
    simp
  · cases hfd : p.l.find strsEq l with
    | some id =>
      have hst : storeStrs l p = (putI32 id, p) := by
        simp only [storeStrs]; rw [if_neg he, hfd]
      rw [hst] at hf ⊢
      obtain ⟨w, hw, hweq⟩ := find_some hfd
      have := strsEq_eq (hsim.gl w id hw).2 hl.2 hweq
      subst this
      have hlt := hsim.l.lt hw
      have hf2 := hf.2.1
      simp only at hf2
      refine ⟨L, ?_, hsim, rfl, rfl⟩
      simp only [loadStrs]
      rw [getI32_putI32 (isI32_nat (by omega))]
      simp only
      rw [if_neg (by omega), if_neg (by omega), if_neg (by omega), if_neg (by rw [hsim.l.1]; omega)]
      simp [hsim.l.2 _ _ hw]
    | none =>
      have hst : storeStrs l p = (putI32 p.l.last ++ (putI32 l.length ++ (storeStrSeq l p.s).1),
              { p with s := (storeStrSeq l p.s).2, l := p.l.add l }) := by
        simp only [storeStrs]; rw [if_neg he, hfd]
      rw [hst] at hf ⊢
      obtain ⟨f1, f2, f3⟩ := hf
      simp only [Tab.add] at f1 f2 f3
      obtain ⟨s', h1, s1⟩ := rt_strSeq (ss := l) (fun s hs => (hl.2 s hs).1) hsim.s f1 r
      refine ⟨{ L with s := s', l := L.l ++ [l] }, ?_, ?_, rfl, rfl⟩
      · simp only [loadStrs, List.append_assoc]
        rw [getI32_putI32 (isI32_nat (by omega))]
        simp only
        rw [if_neg (by omega), if_neg (by omega), if_neg (by omega),
          if_pos (by rw [hsim.l.1]; omega), getI32_putI32 (isI32_nat hl.1)]
        simp only [Int.toNat_natCast, h1]
        rw [← hsim.l.1, grow_set]
      · refine ⟨s1, hsim.l.add l, hsim.e, ?_, hsim.ge⟩
        intro v i hm
        simp only [Tab.add, List.mem_cons, Prod.mk.injEq] at hm
        rcases hm with ⟨rfl, _⟩ | hm
        · exact hl
        · exact hsim.gl v i hm

/-! ## Environments -/

theorem insertKV_new {α : Type} {k : QStr} {v : α} {m : List (QStr × α)}
    (h : ∀ x ∈ m, units x.1 ≠ units k) : insertKV k v m = m ++ [(k, v)] := by
  induction m with
  | nil => rfl
  | cons x xs ih =>
    have hx : strEq x.1 k = false := by simpa [strEq] using h x (by simp)
    simp only [insertKV, hx]
    rw [ih fun y hy => h y (by simp [hy])]
    rfl

theorem insertKeep_new {α : Type} {k : QStr} {v : α} {m : List (QStr × α)}
    (h : ∀ x ∈ m, units x.1 ≠ units k) : insertKeep k v m = m ++ [(k, v)] := by
  induction m with
  | nil => rfl
  | cons x xs ih =>
    have hx : strEq x.1 k = false := by simpa [strEq] using h x (by simp)
    simp only [insertKeep, hx]
    rw [ih fun y hy => h y (by simp [hy])]
    rfl

theorem build_eq {α : Type} {ins : QStr → α → List (QStr × α) → List (QStr × α)}
    (hins : ∀ k v m, (∀ x ∈ m, units x.1 ≠ units k) → ins k v m = m ++ [(k, v)])
    {l : List (QStr × α)} (h : (l.map (·.1)).Pairwise fun a b => units a ≠ units b) :
    build ins l = l := by
  have key : ∀ (l m : List (QStr × α)),
      ((m ++ l).map (·.1)).Pairwise (fun a b => units a ≠ units b) →
      l.foldl (fun m kv => ins kv.1 kv.2 m) m = m ++ l := by
    intro l
    induction l with
    | nil => intro m _; simp
    | cons x xs ih =>
      intro m hm
      rw [List.foldl_cons, hins]
      · rw [ih]
        · simp
        · simpa using hm
      · intro y hy
        rw [List.map_append, List.pairwise_append] at hm
        exact hm.2.2 y.1 (List.mem_map_of_mem hy) x.1 (by simp)
  exact key l [] h

theorem storeEnv_mono (v : List (QStr × QStr)) (p : VP) : MonoV p (storeEnv v p).2 := by
  unfold storeEnv
  split
  · exact MonoV.refl p
  · split
    · exact MonoV.refl p
    · have h1 := storeStrs_mono (v.map (·.1)) p
      have h2 := storeStrSeq_mono (v.map (·.2)) (storeStrs (v.map (·.1)) p).2.s
      exact ⟨Nat.le_trans h1.1 h2, h1.2.1, by simp [Tab.add]⟩

theorem rt_env {v : List (QStr × QStr)} {p : VP} {L : VL} (hv : EnvOk v) (hsim : VSim p L)
    (hf : FitsV (storeEnv v p).2) (r : Bytes) :
    ∃ L', loadEnv ((storeEnv v p).1 ++ r) L = some (v, r, L') ∧ VSim (storeEnv v p).2 L' := by
  by_cases he : v = []
  · subst he
    refine ⟨L, ?_, by simpa [storeEnv] using hsim⟩
    simp only [storeEnv, loadEnv]
    rw [if_pos trivial, getI32_putI32 (by decide)]
    simp
  · cases hfd : p.e.find envEq v with
    | some id =>
      have hst : storeEnv v p = (putI32 id, p) := by
        simp only [storeEnv]; rw [if_neg he, hfd]
      rw [hst] at hf ⊢
      obtain ⟨w, hw, hweq⟩ := find_some hfd
      have := envEq_eq (hsim.ge w id hw) hv hweq
      subst this
      have hlt := hsim.e.lt hw
      have hf2 := hf.2.2
      simp only at hf2
      refine ⟨L, ?_, hsim⟩
      simp only [loadEnv]
      rw [getI32_putI32 (isI32_nat (by omega))]
      simp only
      rw [if_neg (by omega), if_neg (by omega), if_neg (by omega), if_neg (by rw [hsim.e.1]; omega)]
      simp [hsim.e.2 _ _ hw]
    | none =>
      have hst : storeEnv v p = (putI32 p.e.last ++ ((storeStrs (v.map (·.1)) p).1 ++
                (storeStrSeq (v.map (·.2)) (storeStrs (v.map (·.1)) p).2.s).1),
              { (storeStrs (v.map (·.1)) p).2 with
                s := (storeStrSeq (v.map (·.2)) (storeStrs (v.map (·.1)) p).2.s).2
                e := p.e.add v }) := by
        simp only [storeEnv]; rw [if_neg he, hfd]
      rw [hst] at hf ⊢
      obtain ⟨f1, f2, f3⟩ := hf
      simp only [Tab.add] at f1 f2 f3
      have hm2 := storeStrSeq_mono (v.map (·.2)) (storeStrs (v.map (·.1)) p).2.s
      have hm1 := storeStrs_mono (v.map (·.1)) p
      have hb : (storeStrs (v.map (·.1)) p).2.e = p.e := by
        unfold storeStrs; split
        · rfl
        · split <;> rfl
      obtain ⟨L1, h1, s1, e1, e2⟩ := rt_strs hv.1 hsim
        (⟨by omega, f2, by rw [hb]; omega⟩ : FitsV (storeStrs (v.map (·.1)) p).2)
        ((storeStrSeq (v.map (·.2)) (storeStrs (v.map (·.1)) p).2.s).1 ++ r)
      obtain ⟨s', h2, s2⟩ := rt_strSeq (ss := v.map (·.2)) (fun s hs => (hv.2.1.2 s hs).1) s1.s f1 r
      refine ⟨{ L1 with s := s', e := L1.e ++ [v] }, ?_, ?_⟩
      · simp only [loadEnv, List.append_assoc]
        rw [getI32_putI32 (isI32_nat (by omega))]
        simp only
        rw [if_neg (by omega), if_neg (by omega), if_neg (by omega),
          if_pos (by rw [hsim.e.1]; omega)]
        simp only [h1]
        have hlen : (v.map (·.1)).length = (v.map (·.2)).length := by simp
        rw [hlen, h2]
        have hz : (v.map (·.1)).zip (v.map (·.2)) = v := by
          rw [← List.unzip_fst, ← List.unzip_snd]
          exact List.zip_unzip v
        simp only [hz, build_eq (fun k v m => insertKV_new) hv.2.2]
        have hl : ((p.e.last : Int).toNat) = L1.e.length := by rw [e1, hsim.e.1]; omega
        rw [hl, grow_set]
      · refine ⟨s2, s1.l, ?_, s1.gl, ?_⟩
        · rw [e1]; exact hsim.e.add v
        · intro w i hm
          simp only [Tab.add, List.mem_cons, Prod.mk.injEq] at hm
          rcases hm with ⟨rfl, _⟩ | hm
          · exact hv
          · exact hsim.ge w i hm

/-! ## Variants -/

theorem onS_mono {f : Tab QStr → Bytes × Tab QStr} {p : VP} (h : p.s.last ≤ (f p.s).2.last) :
    MonoV p { p with s := (f p.s).2 } := ⟨h, Nat.le_refl _, Nat.le_refl _⟩

mutual
  theorem storeVar_mono {O : Other} : (v : Var O) → (p : VP) → MonoV p (storeVar v p).2
    | .oth _, p => by simp only [storeVar]; exact MonoV.refl p
    | .str s, p => by simp only [storeVar]; exact onS_mono (storeStr_mono s p.s)
    | .strs l, p => by simp only [storeVar]; exact storeStrs_mono l p
    | .list l, p => by simp only [storeVar]; exact storeVars_mono l p
    | .map m, p => by simp only [storeVar]; exact storeKVs_mono m p
  theorem storeVars_mono {O : Other} : (v : Vars O) → (p : VP) → MonoV p (storeVars v p).2
    | .nil, p => MonoV.refl p
    | .cons v vs, p => by
      simp only [storeVars]
      exact (storeVar_mono v p).trans (storeVars_mono vs _)
  theorem storeKVs_mono {O : Other} : (v : KVs O) → (p : VP) → MonoV p (storeKVs v p).2
    | .nil, p => MonoV.refl p
    | .cons k v kvs, p => by
      simp only [storeKVs]
      exact (onS_mono (storeStr_mono k p.s)).trans
        ((storeVar_mono v _).trans (storeKVs_mono kvs _))
end

theorem VSim.setS {p : VP} {L : VL} (h : VSim p L) {t : Tab QStr} {l : List QStr}
    (hs : TabSim t l) : VSim { p with s := t } { L with s := l } :=
  ⟨hs, h.l, h.e, h.gl, h.ge⟩

theorem getBE4 {n : Nat} (h : n < 2 ^ 32) (r : Bytes) : getBE 4 (putBE 4 n ++ r) = some (n, r) :=
  getBE_putBE 4 n r (by simpa using h)

def KVs.append {O : Other} : KVs O → KVs O → KVs O
  | .nil, b => b
  | .cons k v a, b => .cons k v (a.append b)

theorem KVs.insert_new {O : Other} {k : QStr} {v : Var O} : (m : KVs O) →
    (∀ x ∈ m.keys, units x ≠ units k) → m.insert k v = m.append (.cons k v .nil)
  | .nil, _ => rfl
  | .cons k' v' kvs, h => by
    have hx : strEq k' k = false := by simpa [strEq] using h k' (by simp [KVs.keys])
    simp only [KVs.insert, hx, KVs.append]
    rw [KVs.insert_new kvs fun y hy => h y (by simp [KVs.keys, hy])]
    rfl

theorem KVs.append_assoc {O : Other} : (a b c : KVs O) →
    (a.append b).append c = a.append (b.append c)
  | .nil, _, _ => rfl
  | .cons k v a, b, c => by simp only [KVs.append, KVs.append_assoc a b c]

theorem KVs.keys_append {O : Other} : (a b : KVs O) → (a.append b).keys = a.keys ++ b.keys
  | .nil, _ => rfl
  | .cons k v a, b => by simp only [KVs.append, KVs.keys, KVs.keys_append a b, List.cons_append]

theorem KVs.append_nil {O : Other} : (a : KVs O) → a.append .nil = a
  | .nil => rfl
  | .cons k v a => by simp only [KVs.append, KVs.append_nil a]

theorem KVs.length_keys {O : Other} : (a : KVs O) → a.keys.length = a.length
  | .nil => rfl
  | .cons k v a => by simp only [KVs.keys, KVs.length, List.length_cons, KVs.length_keys a]

mutual
  theorem rt_var {O : Other} (hO : O.Lawful) : (v : Var O) → VarOk v → ∀ {p : VP} {L : VL},
      VSim p L → FitsV (storeVar v p).2 → ∀ (r : Bytes) (F : Nat), (storeVar v p).1.length ≤ F →
      ∃ L', loadVar F ((storeVar v p).1 ++ r) L = some (v, r, L') ∧ VSim (storeVar v p).2 L'
    | .oth x, _, p, L, hs, _, r, F, hF => by
      have ht := hO.ty x
      simp only [storeVar, List.length_append, putBE_length] at hF
      obtain ⟨F, rfl⟩ : ∃ F', F = F' + 1 := ⟨F - 1, by omega⟩
      refine ⟨L, ?_, by simpa [storeVar] using hs⟩
      simp only [storeVar, loadVar, List.append_assoc]
      rw [getBE4 ht.1]
      have h2 := ht.2
      simp only [List.mem_cons, List.not_mem_nil, or_false, not_or] at h2
      simp only
      rw [if_neg (show O.ty x ≠ tyStr from h2.2.2.1), if_neg (show O.ty x ≠ tyStrs from h2.2.2.2),
        if_neg (show O.ty x ≠ tyList from h2.2.1), if_neg (show O.ty x ≠ tyMap from h2.1), hO.rt]
    | .str s, hv, p, L, hs, hf, r, F, hF => by
      simp only [storeVar, List.length_append, putBE_length] at hF hf ⊢
      obtain ⟨F, rfl⟩ : ∃ F', F = F' + 1 := ⟨F - 1, by omega⟩
      simp only [VarOk] at hv
      obtain ⟨l', h1, s1⟩ := rt_str hv hs.s hf.1 r
      refine ⟨{ L with s := l' }, ?_, hs.setS s1⟩
      simp only [loadVar, List.append_assoc]
      rw [getBE4 (by decide)]
      simp only
      rw [if_pos trivial, h1]
    | .strs l, hv, p, L, hs, hf, r, F, hF => by
      simp only [storeVar, List.length_append, putBE_length] at hF hf ⊢
      obtain ⟨F, rfl⟩ : ∃ F', F = F' + 1 := ⟨F - 1, by omega⟩
      simp only [VarOk] at hv
      obtain ⟨L', h1, s1, _⟩ := rt_strs hv hs hf r
      refine ⟨L', ?_, s1⟩
      simp only [loadVar, List.append_assoc]
      rw [getBE4 (by decide)]
      simp only
      rw [if_neg (by decide), if_pos trivial, h1]
    | .list l, hv, p, L, hs, hf, r, F, hF => by
      simp only [storeVar, List.length_append, putBE_length] at hF hf ⊢
      obtain ⟨F, rfl⟩ : ∃ F', F = F' + 1 := ⟨F - 1, by omega⟩
      simp only [VarOk] at hv
      obtain ⟨L', h1, s1⟩ := rt_vars hO l hv.2 hs hf r F (by omega)
      refine ⟨L', ?_, s1⟩
      simp only [loadVar, List.append_assoc]
      rw [getBE4 (by decide)]
      simp only
      rw [if_neg (by decide), if_neg (by decide), if_pos trivial, getI32_putI32 (isI32_nat hv.1)]
      simp only [Int.toNat_natCast, h1]
    | .map m, hv, p, L, hs, hf, r, F, hF => by
      simp only [storeVar, List.length_append, putBE_length] at hF hf ⊢
      obtain ⟨F, rfl⟩ : ∃ F', F = F' + 1 := ⟨F - 1, by omega⟩
      simp only [VarOk] at hv
      obtain ⟨L', h1, s1⟩ := rt_kvs hO m .nil hv.1.2.1 hv.2 (by simpa [KVs.append] using hv.1.2.2)
        hs hf r F (by omega)
      refine ⟨L', ?_, s1⟩
      have hl := hv.1.1
      rw [KVs.length_keys] at hl
      simp only [loadVar, List.append_assoc]
      rw [getBE4 (by decide)]
      simp only
      rw [if_neg (by decide), if_neg (by decide), if_neg (by decide), if_pos trivial,
        getI32_putI32 (isI32_nat hl)]
      simp only [Int.toNat_natCast, h1]
      rfl
  theorem rt_vars {O : Other} (hO : O.Lawful) : (vs : Vars O) → VarsOk vs → ∀ {p : VP} {L : VL},
      VSim p L → FitsV (storeVars vs p).2 → ∀ (r : Bytes) (F : Nat), (storeVars vs p).1.length ≤ F →
      ∃ L', loadVars (loadVar F) vs.length ((storeVars vs p).1 ++ r) L = some (vs, r, L') ∧
        VSim (storeVars vs p).2 L'
    | .nil, _, p, L, hs, _, r, F, hF => ⟨L, rfl, hs⟩
    | .cons v vs, hv, p, L, hs, hf, r, F, hF => by
      simp only [storeVars, List.length_append] at hF hf ⊢
      simp only [VarsOk] at hv
      obtain ⟨L1, h1, s1⟩ := rt_var hO v hv.1 hs (FitsV.mono (storeVars_mono vs _) hf)
        ((storeVars vs (storeVar v p).2).1 ++ r) F (by omega)
      obtain ⟨L2, h2, s2⟩ := rt_vars hO vs hv.2 s1 hf r F (by omega)
      refine ⟨L2, ?_, s2⟩
      simp only [Vars.length, loadVars, List.append_assoc, h1, h2]
  theorem rt_kvs {O : Other} (hO : O.Lawful) : (kvs acc : KVs O) → (∀ k ∈ kvs.keys, StrOk k) →
      KVsOk kvs → (acc.append kvs).keys.Pairwise (fun a b => units a ≠ units b) →
      ∀ {p : VP} {L : VL}, VSim p L → FitsV (storeKVs kvs p).2 → ∀ (r : Bytes) (F : Nat),
      (storeKVs kvs p).1.length ≤ F →
      ∃ L', loadKVs (loadVar F) kvs.length acc ((storeKVs kvs p).1 ++ r) L
          = some (acc.append kvs, r, L') ∧ VSim (storeKVs kvs p).2 L'
    | .nil, acc, _, _, _, p, L, hs, _, r, F, hF => ⟨L, by rw [KVs.append_nil]; rfl, hs⟩
    | .cons k v kvs, acc, hk, hv, hd, p, L, hs, hf, r, F, hF => by
      simp only [storeKVs, List.length_append] at hF hf ⊢
      simp only [KVsOk] at hv
      have m2 := storeKVs_mono kvs (storeVar v { p with s := (storeStr k p.s).2 }).2
      have m1 := storeVar_mono v { p with s := (storeStr k p.s).2 }
      have f1 := FitsV.mono m2 hf
      have f0 := FitsV.mono m1 f1
      obtain ⟨l', h0, s0⟩ := rt_str (hk k (by simp [KVs.keys])) hs.s f0.1
        ((storeVar v { p with s := (storeStr k p.s).2 }).1 ++
          ((storeKVs kvs (storeVar v { p with s := (storeStr k p.s).2 }).2).1 ++ r))
      obtain ⟨L1, h1, s1⟩ := rt_var hO v hv.1 (hs.setS s0) f1
        ((storeKVs kvs (storeVar v { p with s := (storeStr k p.s).2 }).2).1 ++ r) F (by omega)
      have hins : acc.insert k v = acc.append (.cons k v .nil) := by
        apply KVs.insert_new
        intro x hx
        rw [KVs.keys_append, List.pairwise_append] at hd
        exact hd.2.2 x hx k (by simp [KVs.keys])
      have happ : (acc.insert k v).append kvs = acc.append (.cons k v kvs) := by
        rw [hins, KVs.append_assoc]; rfl
      obtain ⟨L2, h2, s2⟩ := rt_kvs hO kvs (acc.insert k v)
        (fun x hx => hk x (by simp [KVs.keys, hx])) hv.2 (by rw [happ]; exact hd) s1 hf r F
        (by omega)
      refine ⟨L2, ?_, s2⟩
      simp only [KVs.length, loadKVs, List.append_assoc, h0, h1, h2, happ]
end

end Verif.Persist
