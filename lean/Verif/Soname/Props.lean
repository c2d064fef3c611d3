import Verif.Soname.Spec

/-! # C135: shared libraries are found under their names -/

namespace Verif.Soname

open Spec

theorem split_ne (s : Str) : split s ≠ [] := by
  cases s with
  | nil => simp [split]
  | cons c s =>
    rw [split]
    split
    · simp
    · split <;> simp

theorem split_no_dot (s : Str) : ∀ w ∈ split s, '.' ∉ w := by
  induction s with
  | nil => simp [split]
  | cons c s ih =>
    rw [split]
    by_cases h : c = '.'
    · rw [if_pos h]
      intro w hw
      rcases List.mem_cons.mp hw with hw | hw
      · subst hw; simp
      · exact ih w hw
    · rw [if_neg h]
      cases hs : split s with
      | nil => exact absurd hs (split_ne s)
      | cons x xs =>
        rw [hs] at ih
        intro w hw
        rcases List.mem_cons.mp hw with hw | hw
        · subst hw
          intro hm
          rcases List.mem_cons.mp hm with hm | hm
          · exact h hm.symm
          · exact ih x (by simp) hm
        · exact ih w (by simp [hw])

theorem split_word {w : Str} (h : '.' ∉ w) (s : Str) : split (w ++ '.' :: s) = w :: split s := by
  induction w with
  | nil => simp [split]
  | cons c w ih =>
    simp only [List.mem_cons, not_or] at h
    rw [List.cons_append, split, if_neg (fun e => h.1 e.symm), ih h.2]

theorem split_single {w : Str} (h : '.' ∉ w) : split w = [w] := by
  induction w with
  | nil => simp [split]
  | cons c w ih =>
    simp only [List.mem_cons, not_or] at h
    rw [split, if_neg (fun e => h.1 e.symm), ih h.2]

/-- Matched texts begin with a digit. -/
def Starts (t : Str) : Prop := ∃ c r, t = c :: r ∧ isDigit c = true

theorem digits_starts (s : Str) : ∀ p ∈ digits s, Starts p.1 := by
  cases s with
  | nil => simp [digits]
  | cons c s =>
    rw [digits]
    split
    · rename_i h
      intro p hp
      rcases List.mem_append.mp hp with hp | hp
      · obtain ⟨q, _, e⟩ := List.mem_map.mp hp
        subst e
        exact ⟨c, q.1, rfl, h⟩
      · rw [List.mem_singleton] at hp
        subst hp
        exact ⟨c, [], rfl, h⟩
    · simp

theorem group_starts (s : Str) : ∀ p ∈ group s, Starts p.1 := by
  intro p hp
  obtain ⟨q, h1, h2⟩ := List.mem_flatMap.mp hp
  obtain ⟨c, r, e, hc⟩ := digits_starts s q h1
  cases hq : q.2 with
  | nil => rw [hq] at h2; cases h2
  | cons d t =>
    rw [hq] at h2
    simp only at h2
    split at h2
    · cases h2
    · rw [List.mem_singleton] at h2
      subst h2
      exact ⟨c, r ++ [d], by simp [e], hc⟩

theorem rep_starts (k : Nat) (s : Str) : ∀ p ∈ rep k s, p.1 = [] ∨ Starts p.1 := by
  cases k with
  | zero => simp [rep]
  | succ k =>
    intro p hp
    rw [rep] at hp
    rcases List.mem_append.mp hp with hp | hp
    · obtain ⟨q, h1, h2⟩ := List.mem_flatMap.mp hp
      obtain ⟨r, _, e⟩ := List.mem_map.mp h2
      subst e
      obtain ⟨c, t, e, hc⟩ := group_starts s q h1
      exact Or.inr ⟨c, t ++ r.1, by simp [e], hc⟩
    · rw [List.mem_singleton] at hp
      subst hp
      exact Or.inl rfl

theorem core_starts {s t : Str} (h : core s = some t) : Starts t := by
  have := List.mem_of_head? h
  obtain ⟨p, h1, h2⟩ := List.mem_flatMap.mp this
  obtain ⟨q, h3, e⟩ := List.mem_map.mp h2
  subst e
  obtain ⟨c, r, e, hc⟩ := digits_starts _ q h3
  rcases rep_starts _ _ p h1 with h4 | ⟨c', r', e', hc'⟩
  · rw [h4, List.nil_append]; exact ⟨c, r, e, hc⟩
  · exact ⟨c', r' ++ q.1, by simp [e'], hc'⟩

/-- The default version is empty, or has three parts without dots, the first of which is not empty. -/
theorem internal_shape (version : Option Str) :
    defaultInternal version = [] ∨
    ∃ a b c : Str, defaultInternal version = a ++ '.' :: (b ++ '.' :: c) ∧ a ≠ [] ∧ '.' ∉ a ∧ '.' ∉ b ∧ '.' ∉ c := by
  cases version with
  | none => exact Or.inl rfl
  | some v =>
    unfold defaultInternal
    cases hc : core v with
    | none => exact Or.inl (by simp [hc])
    | some t =>
      right
      simp only [hc]
      obtain ⟨d, r, e, hd⟩ := core_starts hc
      have hfirst : ∃ w ws, split t = (d :: w) :: ws := by
        rw [e, split, if_neg (fun e => by rw [e] at hd; exact absurd hd (by decide))]
        cases split r with
        | nil => exact ⟨_, _, rfl⟩
        | cons x xs => exact ⟨_, _, rfl⟩
      obtain ⟨w, ws, hs⟩ := hfirst
      have hn := split_no_dot t
      rw [hs] at hn ⊢
      have hz : ('.' : Char) ∉ (['0'] : Str) := by decide
      match ws, hn with
      | [], hn => exact ⟨d :: w, ['0'], ['0'], rfl, by simp, hn _ (by simp), hz, hz⟩
      | [x], hn => exact ⟨d :: w, x, ['0'], rfl, by simp, hn _ (by simp), hn _ (by simp), hz⟩
      | x :: y :: ws, hn =>
        refine ⟨d :: w, x, y, ?_, by simp, hn _ (by simp), hn _ (by simp), hn _ (by simp)⟩
        simp [pad, join]

/-- **C135.** Versions made of the product's version are complete: whatever it is, there is no version or there are three parts. -/
theorem C135_three_parts (version : Option Str) :
    defaultInternal version = [] ∨ (split (defaultInternal version)).length = 3 := by
  rcases internal_shape version with h | ⟨a, b, c, h, _, ha, hb, hc⟩
  · exact Or.inl h
  · right
    rw [h, split_word ha, split_word hb, split_single hc]
    rfl

theorem names {p : Product} {a b c : Str} (hi : p.internal = a ++ '.' :: (b ++ '.' :: c)) (hane : a ≠ []) (ha : '.' ∉ a) (hb : '.' ∉ b)
    (hc : '.' ∉ c) :
    nameVersion p (some 0) = [] ∧ nameVersion p (some 1) = a ∧ nameVersion p (some 2) = a ++ '.' :: b ∧ nameVersion p none = p.internal := by
  have hs : split p.internal = [a, b, c] := by
    rw [hi, split_word ha, split_word hb, split_single hc]
  have hne : p.internal ≠ [] := by rw [hi]; simp
  refine ⟨rfl, ?_, ?_, rfl⟩
  · simp [nameVersion, hne, hs, join]
  · simp [nameVersion, hne, hs, join]

theorem name_length (p : Product) (hf : p.format = .elf ∨ p.format = .macho) (m : Option Nat) :
    (libraryName p m).length = (plainName p).length + (if nameVersion p m = [] then 0 else (nameVersion p m).length + 1) := by
  unfold libraryName plainName
  by_cases h : nameVersion p m = []
  · simp [h]
  · rcases hf with hf | hf <;> simp [h, hf] <;> omega

theorem name_plain (p : Product) (m : Option Nat) (h : nameVersion p m = []) : libraryName p m = plainName p := by
  simp [libraryName, plainName, h]

theorem elf_name {p : Product} (hf : p.format = .elf) {m : Option Nat} (h : nameVersion p m ≠ []) :
    libraryName p m = (plainName p ++ ['.']) ++ nameVersion p m := by
  simp [libraryName, plainName, hf, h]

theorem elf_soname {p : Product} (hf : p.format = .elf) (hi : p.internal ≠ []) {m : Option Nat} (hm : nameVersion p m ≠ [])
    (hs : p.soVersion = nameVersion p m) : soname p = libraryName p m := by
  unfold soname
  simp only [hf, hs, hm, hi, ne_eq, not_false_eq_true, if_true, reduceCtorEq, if_false]
  have hn : nameVersion p none = p.internal := rfl
  have hl : (libraryName p none).length - p.internal.length = (plainName p ++ ['.']).length := by
    rw [elf_name hf (by rw [hn]; exact hi), hn, List.length_append (as := plainName p ++ ['.'])]
    omega
  rw [hl, elf_name hf (by rw [hn]; exact hi), List.take_left, elf_name hf hm]

/-- The links of a product with a complete version -/
theorem links_eq {p : Product} {a b c : Str} (hi : p.internal = a ++ '.' :: (b ++ '.' :: c)) (hane : a ≠ []) (ha : '.' ∉ a) (hb : '.' ∉ b)
    (hc : '.' ∉ c) (hf : p.format = .elf ∨ p.format = .macho) (hs : p.createSymlinks = true) :
    links p = [(libraryName p (some 0), libraryName p none), (libraryName p (some 1), libraryName p none),
      (libraryName p (some 2), libraryName p none)] ∧
    libraryName p (some 0) ≠ libraryName p (some 1) ∧ libraryName p (some 0) ≠ libraryName p (some 2) ∧
    libraryName p (some 1) ≠ libraryName p (some 2) ∧ libraryName p (some 0) ≠ libraryName p none ∧
    libraryName p (some 1) ≠ libraryName p none ∧ libraryName p (some 2) ≠ libraryName p none := by
  obtain ⟨n0, n1, n2, n3⟩ := names hi hane ha hb hc
  have hne : p.internal ≠ [] := by rw [hi]; simp
  have l0 := name_length p hf (some 0)
  have l1 := name_length p hf (some 1)
  have l2 := name_length p hf (some 2)
  have l3 := name_length p hf none
  rw [n0, if_pos rfl] at l0
  rw [n1, if_neg hane] at l1
  rw [n2, if_neg (by simp)] at l2
  rw [n3, if_neg hne, hi] at l3
  simp only [List.length_append, List.length_cons] at l2 l3
  have d : ∀ x y : Str, x.length ≠ y.length → x ≠ y := fun x y h e => h (by rw [e])
  have d01 := d (libraryName p (some 0)) (libraryName p (some 1)) (by omega)
  have d02 := d (libraryName p (some 0)) (libraryName p (some 2)) (by omega)
  have d12 := d (libraryName p (some 1)) (libraryName p (some 2)) (by omega)
  refine ⟨?_, d01, d02, d12, d _ _ (by omega), d _ _ (by omega), d _ _ (by omega)⟩
  unfold links
  rw [if_pos ⟨hs, hne, hf.symm⟩, if_pos hne]
  simp [linksFrom, d01, d12]

/-- **C135.** With the default versions, made of any version of the product, the loader finds the library under its soname (or install name),
the linker finds it under the plain name, all links refer to the library, they have different names, and none replaces the library. -/
theorem C135_found_partial (p : Product) (version : Option Str) (hi : p.internal = defaultInternal version)
    (hso : p.soVersion = defaultSo p.internal) (hf : p.format = .elf ∨ p.format = .macho) (hs : p.createSymlinks = true) :
    Opens (links p) (libraryName p none) (soname p) ∧
    Opens (links p) (libraryName p none) (plainName p) ∧
    (∀ l ∈ links p, l.2 = libraryName p none ∧ l.1 ≠ libraryName p none) ∧ ((links p).map (·.1)).Nodup := by
  rcases internal_shape version with h | ⟨a, b, c, h, hane, ha, hb, hc⟩
  · rw [h] at hi
    have hl : links p = [] := by simp [links, hi]
    have hp : libraryName p none = plainName p := name_plain p none hi
    have hsn : soname p = libraryName p none := by
      simp [soname, hso, hi, defaultSo]
    rw [hl, hsn, ← hp]
    exact ⟨.file (by simp), .file (by simp), by simp, by simp⟩
  · rw [h] at hi
    obtain ⟨hl, d01, d02, d12, d0, d1, d2⟩ := links_eq hi hane ha hb hc hf hs
    have hall : ∀ l ∈ links p, l.2 = libraryName p none ∧ l.1 ≠ libraryName p none := by
      rw [hl]
      intro l hm
      simp only [List.mem_cons, List.not_mem_nil, or_false] at hm
      rcases hm with hm | hm | hm <;> subst hm
      · exact ⟨rfl, d0⟩
      · exact ⟨rfl, d1⟩
      · exact ⟨rfl, d2⟩
    have hfile : Opens (links p) (libraryName p none) (libraryName p none) := .file (fun l hm => (hall l hm).2)
    have hlink : ∀ n, (n, libraryName p none) ∈ links p → Opens (links p) (libraryName p none) n :=
      fun n hm => .link n _ hm (fun l h _ => (hall l h).1) hfile
    refine ⟨?_, ?_, hall, ?_⟩
    · rcases hf with hf | hf
      · have hne : p.internal ≠ [] := by rw [hi]; simp
        have hso' : p.soVersion = a := by
          rw [hso, defaultSo, if_neg hne, hi, split_word ha]; rfl
        obtain ⟨_, n1, _, n3⟩ := names hi hane ha hb hc
        have e : soname p = libraryName p (some 1) := elf_soname hf hne (by rw [n1]; exact hane) (by rw [n1]; exact hso')
        rw [e]
        exact hlink _ (by rw [hl]; simp)
      · have e : soname p = libraryName p none := by simp [soname, hf]
        rw [e]; exact hfile
    · rw [← name_plain p (some 0) rfl]
      exact hlink _ (by rw [hl]; simp)
    · rw [hl]
      simp [d01, d02, d12]

/-- **C135.** A `soVersion` set by the user works if it is a beginning of the version, in whole parts. -/
theorem C135_so_version (p : Product) (a b c : Str) (hi : p.internal = a ++ '.' :: (b ++ '.' :: c)) (hane : a ≠ []) (ha : '.' ∉ a)
    (hb : '.' ∉ b) (hc : '.' ∉ c) (hso : p.soVersion = a ∨ p.soVersion = a ++ '.' :: b ∨ p.soVersion = p.internal)
    (hf : p.format = .elf) (hs : p.createSymlinks = true) :
    Opens (links p) (libraryName p none) (soname p) := by
  obtain ⟨hl, d01, d02, d12, d0, d1, d2⟩ := links_eq hi hane ha hb hc (Or.inl hf) hs
  obtain ⟨_, n1, n2, n3⟩ := names hi hane ha hb hc
  have hne : p.internal ≠ [] := by rw [hi]; simp
  have hall : ∀ l ∈ links p, l.2 = libraryName p none ∧ l.1 ≠ libraryName p none := by
    rw [hl]
    intro l hm
    simp only [List.mem_cons, List.not_mem_nil, or_false] at hm
    rcases hm with hm | hm | hm <;> subst hm
    · exact ⟨rfl, d0⟩
    · exact ⟨rfl, d1⟩
    · exact ⟨rfl, d2⟩
  have hfile : Opens (links p) (libraryName p none) (libraryName p none) := .file (fun l hm => (hall l hm).2)
  have hlink : ∀ n, (n, libraryName p none) ∈ links p → Opens (links p) (libraryName p none) n :=
    fun n hm => .link n _ hm (fun l h _ => (hall l h).1) hfile
  have key : ∀ m : Option Nat, nameVersion p m ≠ [] → p.soVersion = nameVersion p m → soname p = libraryName p m :=
    fun m => elf_soname hf hne
  rcases hso with h | h | h
  · rw [key (some 1) (by rw [n1]; exact hane) (by rw [n1]; exact h)]
    exact hlink _ (by rw [hl]; simp)
  · rw [key (some 2) (by rw [n2]; simp) (by rw [n2]; exact h)]
    exact hlink _ (by rw [hl]; simp)
  · rw [key none (by rw [n3]; exact hne) (by rw [n3]; exact h)]
    exact hfile

end Verif.Soname
