import Verif.CMakeExport.File
import Verif.PathProbe.Lem

/-! # The values of arguments -/

namespace Verif.CMakeExport

theorem expand_plain {vs : Vars} {w : CText} (s : CText) (h : ∀ c ∈ w, isPlain c = true) :
    expand vs .text (w ++ s) = (expand vs .text s).map (w ++ ·) := by
  induction w with
  | nil => rw [List.nil_append]; cases expand vs .text s <;> rfl
  | cons c w ih =>
    obtain ⟨_, h2, h3, _⟩ := isPlain_iff (h c (by simp))
    rw [List.cons_append]
    simp only [expand, h2, h3, if_false]
    rw [ih (fun x hx => h x (by simp [hx]))]
    cases expand vs .text s <;> rfl

theorem expand_text {vs : Vars} {w : CText} (h : ∀ c ∈ w, isPlain c = true) : expand vs .text w = some w := by
  have := expand_plain (vs := vs) [] h
  rw [List.append_nil] at this
  rw [this]
  simp [expand]

theorem expand_name {vs : Vars} {acc n s : CText} (h : '}' ∉ n) :
    expand vs (.ref acc) (n ++ '}' :: s) = (expand vs .text s).map (vs.value (acc ++ n) ++ ·) := by
  induction n generalizing acc with
  | nil => simp [expand]
  | cons c n ih =>
    have hc : c ≠ '}' := fun e => h (by simp [e])
    rw [List.cons_append]
    simp only [expand, hc, if_false]
    rw [ih (fun x => h (by simp [x]))]
    simp

theorem expand_ref {vs : Vars} {n s : CText} (h : '}' ∉ n) :
    expand vs .text ("${".toList ++ n ++ ['}'] ++ s) = (expand vs .text s).map (vs.value n ++ ·) := by
  have e : "${".toList ++ n ++ ['}'] ++ s = '$' :: '{' :: (n ++ '}' :: s) := by simp
  rw [e]
  show expand vs (.ref []) (n ++ '}' :: s) = _
  rw [expand_name h]
  rfl

theorem elements_single {v : CText} (hne : v ≠ []) (h : ';' ∉ v) : elements v = [v] := by
  induction v with
  | nil => exact absurd rfl hne
  | cons c v ih =>
    have hc : c ≠ ';' := fun e => h (by simp [e])
    cases v with
    | nil => simp [elements, hc]
    | cons d v =>
      have hd : d ≠ ';' := fun e => h (by simp [e])
      rw [elements.eq_def]
      simp only [hc, hd, if_false]
      rw [ih (by simp) (fun x => h (List.mem_cons_of_mem _ x))]

/-- The value of an argument, which is one element -/
def Item (vs : Vars) (a : Arg) (v : CText) : Prop := expand vs .text a.raw = some v ∧ v ≠ [] ∧ ';' ∉ v

theorem Item.elements {vs a v} (h : Item vs a v) : elements v = [v] := elements_single h.2.1 h.2.2

theorem item_word {vs : Vars} {w : CText} (h : Word w) : Item vs (word w) w := by
  have hp : ∀ c ∈ w, isPlain c = true := fun c hc => (isWord_iff (h.2 c hc)).2.1
  exact ⟨expand_text hp, h.1, fun x => (isPlain_iff (hp _ x)).2.2.2 rfl⟩

theorem item_quoted {vs : Vars} {w : CText} (h : Plain w) : Item vs ⟨true, w⟩ w :=
  ⟨expand_text h.2, h.1, fun x => (isPlain_iff (h.2 _ x)).2.2.2 rfl⟩

theorem values_cons {vs a v as r} (h : Item vs a v) (h' : values vs as = some r) : values vs (a :: as) = some (v :: r) := by
  simp only [values, h.1, h', h.elements]
  simp

theorem values_map {α : Type} {vs : Vars} {f : α → Arg} {g : α → CText} {l : List α} (h : ∀ x ∈ l, Item vs (f x) (g x)) :
    values vs (l.map f) = some (l.map g) := by
  induction l with
  | nil => rfl
  | cons a l ih => exact values_cons (h a (by simp)) (ih fun x hx => h x (by simp [hx]))

theorem values_append {vs a b r s} (h : values vs a = some r) (h' : values vs b = some s) : values vs (a ++ b) = some (r ++ s) := by
  induction a generalizing r with
  | nil => cases h; exact h'
  | cons x a ih =>
    simp only [values] at h
    cases h1 : expand vs .text x.raw with
    | none => rw [h1] at h; cases h
    | some v =>
      cases h2 : values vs a with
      | none => rw [h1, h2] at h; cases h
      | some q =>
        rw [h1, h2] at h
        cases h
        rw [List.cons_append]
        simp only [values, h1, ih h2]
        simp

theorem elements_map {α : Type} {vs : Vars} {f : α → Arg} {g : α → CText} {l : List α} (h : ∀ x ∈ l, Item vs (f x) (g x)) :
    (l.map g).flatMap elements = l.map g := by
  induction l with
  | nil => rfl
  | cons a l ih =>
    rw [List.map_cons, List.flatMap_cons, (h a (by simp)).elements, ih fun x hx => h x (by simp [hx])]
    rfl

/-! ## Paths -/

open Verif.PathProbe (joinPaths joinSlash unique unique_clean Clean)

/-- What is written for a path, without quotes -/
def raw (p : Product) (v : CText) : CText :=
  match under (p.installRoot ++ p.installPrefix) v with
  | some rest => "${".toList ++ prefixVar p ++ ['}'] ++ rest
  | none =>
    match under p.installPrefix v with
    | some rest => "${".toList ++ prefixVar p ++ ['}'] ++ rest
    | none => v

theorem Directory.length {d : Text} (h : Directory d) : d.length > 1 := by
  obtain ⟨h1, h2, _⟩ := h
  match d, h1, h2 with
  | [a], h1, h2 => simp at h1 h2; exact absurd h1 h2
  | _ :: _ :: _, _, _ => simp

theorem unique_append_clean {a b : Text} (ha : Clean a) (hl : a.getLast? ≠ some '/') : unique (a ++ '/' :: b) = a ++ unique ('/' :: b) := by
  induction a with
  | nil => rfl
  | cons c a ih =>
    have hc : Clean a := fun x y e => ha (c :: x) y (by rw [e]; rfl)
    cases a with
    | nil =>
      have : c ≠ '/' := fun e => hl (by simp [e])
      simp [unique, this]
    | cons d a =>
      have : ¬ (c = '/' ∧ d = '/') := fun e => ha [] a (by rw [e.1, e.2]; rfl)
      have hl' : (d :: a).getLast? ≠ some '/' := by
        rw [List.getLast?_cons_cons] at hl
        exact hl
      have ih := ih hc hl'
      rw [List.cons_append, List.cons_append, unique, if_neg this, ← List.cons_append, ih]
      rfl

theorem join_dirs {r p : Text} (hr : Directory r) (hp : Directory p) : joinPaths [r, p] = r ++ p := by
  have h1 : r ≠ [] := fun e => by have := hr.1; rw [e] at this; cases this
  have h2 : p ≠ [] := fun e => by have := hp.1; rw [e] at this; cases this
  unfold joinPaths
  have : ([r, p] : List Text).filter (fun p => !p.isEmpty) = [r, p] := by simp [h1, h2]
  rw [this]
  show unique (r ++ '/' :: p) = _
  rw [unique_append_clean hr.2.2 hr.2.1]
  cases p with
  | nil => exact absurd rfl h2
  | cons c p =>
    have hc : c = '/' := by simpa using hp.1
    subst hc
    rw [unique]
    simp only [and_self, if_true]
    rw [unique_clean (s := '/' :: p) hp.2.2]

theorem join_prefix {p : Text} (hp : Directory p) : joinPaths [['/'], p] = p := by
  have h2 : p ≠ [] := fun e => by have := hp.1; rw [e] at this; cases this
  unfold joinPaths
  have : ([['/'], p] : List Text).filter (fun p => !p.isEmpty) = [['/'], p] := by simp [h2]
  rw [this]
  show unique ('/' :: '/' :: p) = _
  cases p with
  | nil => exact absurd rfl h2
  | cons c p =>
    have hc : c = '/' := by simpa using hp.1
    subst hc
    rw [unique]
    simp only [and_self, if_true]
    rw [unique]
    simp only [and_self, if_true]
    rw [unique_clean (s := '/' :: p) hp.2.2]

theorem startsWith_iff {s p : Text} : startsWith s p = true ↔ p <+: s := by
  unfold startsWith
  exact List.isPrefixOf_iff_prefix

theorem quoted_path {p : Product} {c : Cpp} (h : p.ok c) {v : Text} (hv : Exportable p v) :
    quoteAndPrefixify p v = some (quote (raw p v)) := by
  have hs : prefixToStrip p v = some (if p.installRoot ++ p.installPrefix <+: v then some (p.installRoot ++ p.installPrefix)
      else if p.installPrefix <+: v then some p.installPrefix else none) := by
    unfold prefixToStrip
    have : ¬ (¬ startsWith v p.installRoot = true ∧ (startsWith v p.buildDirectory = true ∨ startsWith v p.sourceDirectory = true)) := by
      simp only [startsWith_iff]
      rcases hv.2 with x | x
      · exact fun y => y.1 x
      · exact fun y => y.2.elim x.1 x.2
    rw [if_neg this]
    simp only [join_dirs h.root h.pre, join_prefix h.pre, startsWith_iff]
    have l1 := h.root.length
    have l2 := h.pre.length
    have l3 : (p.installRoot ++ p.installPrefix).length > 1 := by simp; omega
    simp only [l2, l3, true_and]
    split
    · rfl
    · split <;> rfl
  have hlen : ∀ {d : Text}, d <+: v → d.length ≤ v.length := fun h => h.length_le
  unfold quoteAndPrefixify
  rw [hs]
  unfold raw under
  by_cases h1 : p.installRoot ++ p.installPrefix <+: v
  · have hno : ¬ p.installPrefix <+: v := fun h2 => by
      have h3 : p.installRoot <+: v := (List.prefix_append _ _).trans h1
      rcases List.prefix_or_prefix_of_prefix h2 h3 with x | x
      · exact h.separate.2 x
      · exact h.separate.1 x
    simp only [h1, hno, if_true, true_and, false_and, if_false]
    have := hlen h1
    by_cases hb : v.length = (p.installRoot ++ p.installPrefix).length ∨ v[(p.installRoot ++ p.installPrefix).length]? = some '/'
    · rw [if_pos hb, if_neg (fun x => hb.elim (fun y => by have := x.1; omega) x.2)]
    · rw [if_neg hb, if_pos ⟨by have : v.length ≠ (p.installRoot ++ p.installPrefix).length := fun e => hb (.inl e)
                                omega, fun e => hb (.inr e)⟩]
  · simp only [h1, if_false, false_and]
    by_cases h2 : p.installPrefix <+: v
    · simp only [h2, if_true, true_and]
      have := hlen h2
      by_cases hb : v.length = p.installPrefix.length ∨ v[p.installPrefix.length]? = some '/'
      · rw [if_pos hb, if_neg (fun x => hb.elim (fun y => by have := x.1; omega) x.2)]
      · rw [if_neg hb, if_pos ⟨by have : v.length ≠ p.installPrefix.length := fun e => hb (.inl e)
                                  omega, fun e => hb (.inr e)⟩]
    · simp only [h2, if_false, false_and]

theorem under_drop {d v rest : Text} (h : under d v = some rest) : rest = v.drop d.length := by
  unfold under at h
  split at h
  · cases h; rfl
  · cases h

theorem raw_good {p : Product} {v : Text} (hw : Word (prefixVar p)) (hv : ∀ c ∈ v, isPlain c = true) :
    ∀ c ∈ raw p v, c ≠ '"' ∧ c ≠ '\\' := by
  have hd : ∀ n, ∀ c ∈ v.drop n, c ≠ '"' ∧ c ≠ '\\' := fun n c hc => plain_no_quote hv c (List.mem_of_mem_drop hc)
  have hvar : ∀ c ∈ "${".toList ++ prefixVar p ++ ['}'], c ≠ '"' ∧ c ≠ '\\' := by
    intro c hc
    rcases List.mem_append.mp hc with x | x
    · rcases List.mem_append.mp x with y | y
      · exact (by decide : ∀ c ∈ "${".toList, c ≠ '"' ∧ c ≠ '\\') c y
      · exact plain_no_quote (fun c hc => (isWord_iff (hw.2 c hc)).2.1) c y
    · exact (by decide : ∀ c ∈ ['}'], c ≠ '"' ∧ c ≠ '\\') c x
  have both : ∀ n, ∀ c ∈ "${".toList ++ prefixVar p ++ ['}'] ++ v.drop n, c ≠ '"' ∧ c ≠ '\\' := fun n c hc =>
    (List.mem_append.mp hc).elim (hvar c) (hd n c)
  unfold raw
  split
  · rename_i rest h; rw [under_drop h]; exact both _
  · split
    · rename_i rest h; rw [under_drop h]; exact both _
    · exact plain_no_quote hv

theorem item_path {p : Product} {vs : Vars} {new v : Text} (hw : Word (prefixVar p)) (hv : Plain v) (hn : vs.value (prefixVar p) = new)
    (hne : new ≠ []) (hnew : ';' ∉ new) : Item vs ⟨true, raw p v⟩ (moved p new v) := by
  have hb : '}' ∉ prefixVar p := fun x => (isWord_iff (hw.2 _ x)).2.2.2.2.2.2 rfl
  have hd : ∀ n, ∀ c ∈ v.drop n, isPlain c = true := fun n c hc => hv.2 c (List.mem_of_mem_drop hc)
  have one : ∀ n, Item vs ⟨true, "${".toList ++ prefixVar p ++ ['}'] ++ v.drop n⟩ (new ++ v.drop n) := by
    intro n
    refine ⟨?_, by simp [hne], fun x => ?_⟩
    · show expand vs .text _ = _
      rw [expand_ref hb, expand_text (hd n), hn]
      rfl
    · rcases List.mem_append.mp x with y | y
      · exact hnew y
      · exact (isPlain_iff (hd n _ y)).2.2.2 rfl
  unfold raw moved
  cases h1 : under (p.installRoot ++ p.installPrefix) v with
  | some rest => rw [under_drop h1]; exact one _
  | none =>
    cases h2 : under p.installPrefix v with
    | some rest => rw [under_drop h2]; exact one _
    | none => exact item_quoted hv

end Verif.CMakeExport
