import Verif.Symbols.Spec

/-! # C136: users of shared libraries are linked again when the symbols change -/

namespace Verif.Symbols

open Spec

theorem takeWhile_all {p : Char → Bool} {a : Str} (ha : ∀ c ∈ a, p c = true) {r : Str} (hr : ∀ c, r.head? = some c → p c = false) :
    (a ++ r).takeWhile p = a ∧ (a ++ r).dropWhile p = r := by
  induction a with
  | nil =>
    cases r with
    | nil => simp
    | cons c r => simp [hr c rfl]
  | cons c a ih =>
    have h1 := ha c (by simp)
    have h2 := ih (fun d hd => ha d (by simp [hd]))
    simp [h1, h2.1, h2.2]

/-- **C136.** Name and type of a symbol are the first two words of its line. -/
theorem C136_words (name gap type rest : Str) (hn : ∀ c ∈ name, isSpace c = false) (hg : ∀ c ∈ gap, isSpace c = true) (hne : gap ≠ [])
    (ht : ∀ c ∈ type, isSpace c = false) (hr : ∀ c, rest.head? = some c → isSpace c = true)
    (hte : type ≠ []) :
    symbol (name ++ gap ++ type ++ rest) = (name, some type) := by
  have e : name ++ gap ++ type ++ rest = name ++ (gap ++ (type ++ rest)) := by simp
  have h1 := takeWhile_all (p := fun c => !isSpace c) (a := name) (r := gap ++ (type ++ rest)) (by simpa using hn) (by
    intro c hc
    cases gap with
    | nil => exact absurd rfl hne
    | cons g gap =>
      have : g = c := by simpa using hc
      subst this
      simp [hg g (by simp)])
  have h2 := takeWhile_all (p := isSpace) (a := gap) (r := type ++ rest) hg (by
    intro c hc
    cases type with
    | nil => exact absurd rfl hte
    | cons t type =>
      have : t = c := by simpa using hc
      subst this
      exact ht t (by simp))
  have h3 := takeWhile_all (p := fun c => !isSpace c) (a := type) (r := rest) (by simpa using ht) (by
    intro c hc; simp [hr c hc])
  unfold symbol elem0 elem1
  rw [e, h1.1, h1.2]
  cases gap with
  | nil => exact absurd rfl hne
  | cons g gap =>
    rw [List.cons_append] at h2 ⊢
    simp only
    rw [h2.2, h3.1]

/-! ## Reading back -/

theorem read_second (ls : List Str) (h : ∀ l ∈ ls, l ≠ [] ∧ l ≠ separator) (r : List Str × List Str) :
    readLoop ls true r = (r.1, r.2 ++ ls) := by
  induction ls generalizing r with
  | nil => simp [readLoop]
  | cons l ls ih =>
    have hl := h l (by simp)
    rw [readLoop, if_neg hl.1, if_neg hl.2, if_pos rfl, ih (fun x hx => h x (by simp [hx]))]
    simp

theorem read_first (ls rest : List Str) (h : ∀ l ∈ ls, l ≠ [] ∧ l ≠ separator) (r : List Str × List Str) :
    readLoop (ls ++ separator :: rest) false r = readLoop rest true (r.1 ++ ls, r.2) := by
  induction ls generalizing r with
  | nil =>
    rw [List.nil_append, readLoop, if_neg (by decide), if_pos rfl]
    simp
  | cons l ls ih =>
    have hl := h l (by simp)
    rw [List.cons_append, readLoop, if_neg hl.1, if_neg hl.2, if_neg (by simp), ih (fun x hx => h x (by simp [hx]))]
    simp

/-- **C136.** Symbol files are read back as they were written. -/
theorem C136_read_back (n : Nm) (h : Proper n) : readFile (fileLines n) = (n.all, defined_ n) := by
  unfold readFile fileLines
  rw [read_first _ _ h, read_second]
  · simp
  · intro l hl
    exact h l (List.mem_filter.mp hl).1

theorem relevant_lines (strict : Bool) (n : Nm) :
    (relevantLines strict (n.all, defined_ n)).map symbol = relevant strict n := by
  unfold relevantLines relevant
  cases strict with
  | true => rfl
  | false =>
    simp only [Bool.false_eq_true, if_false, defined_, List.filter_filter]
    congr 1
    apply List.filter_congr
    intro l _
    rw [Bool.eq_iff_iff]
    simp only [notWeak, symbol, weakTypes, List.mem_cons, List.not_mem_nil, or_false, forall_eq_or_imp, forall_eq, Bool.and_eq_true,
      decide_eq_true_eq, Bool.not_eq_true', List.contains_iff_mem, ne_eq, Bool.eq_false_iff]
    constructor
    · rintro ⟨⟨⟨⟨h1, h2⟩, h3⟩, h4⟩, h5⟩; exact ⟨h5, h1, h2, h3, h4⟩
    · rintro ⟨h5, h1, h2, h3, h4⟩; exact ⟨⟨⟨⟨h1, h2⟩, h3⟩, h4⟩, h5⟩

theorem differ_iff : ∀ (a b : List Str), a.length = b.length → (differ a b = true ↔ a.map symbol ≠ b.map symbol)
  | [], [], _ => by simp [differ]
  | [], _ :: _, h => by simp at h
  | _ :: _, [], h => by simp at h
  | o :: os, n :: ns, h => by
    have ih := differ_iff os ns (by simpa using h)
    rw [differ]
    by_cases h1 : elem0 o = elem0 n
    · by_cases h2 : elem1 o = elem1 n
      · simp only [h1, h2, ne_eq, not_true_eq_false, decide_false, Bool.or_self, Bool.false_eq_true, if_false, ih, List.map_cons,
          List.cons.injEq, symbol, true_and]
      · simp [h1, h2, symbol]
    · simp [h1, symbol]

/-- The file holds the relevant symbols `last`. -/
def Holds (strict : Bool) (file : Option (List Str)) (last : Option (List (Str × Option Str))) : Prop :=
  match file, last with
  | none, none => True
  | some ls, some r => (relevantLines strict (readFile ls)).map symbol = r
  | _, _ => False

theorem holds_written (strict : Bool) (n : Nm) (h : Proper n) : Holds strict (some (fileLines n)) (some (relevant strict n)) := by
  show (relevantLines strict (readFile (fileLines n))).map symbol = _
  rw [C136_read_back n h, relevant_lines]

theorem step_holds (strict : Bool) (file : Option (List Str)) (last : Option (List (Str × Option Str))) (n : Nm) (h : Proper n)
    (hh : Holds strict file last) :
    Holds strict (step strict file (some n)).1 (some (relevant strict n)) ∧
    (step strict file (some n)).2 = decide (last ≠ some (relevant strict n)) := by
  unfold step
  cases file with
  | none =>
    cases last with
    | some r => exact absurd hh (by simp [Holds])
    | none => exact ⟨holds_written strict n h, by simp⟩
  | some ls =>
    cases last with
    | none => exact absurd hh (by simp [Holds])
    | some r =>
      have hr : (relevantLines strict (readFile ls)).map symbol = r := hh
      simp only
      rw [← relevant_lines strict n, ← hr]
      by_cases h1 : (relevantLines strict (readFile ls)).length = (relevantLines strict (n.all, defined_ n)).length
      · rw [if_neg (by simpa using h1)]
        have hd := differ_iff _ _ h1
        by_cases h2 : differ (relevantLines strict (readFile ls)) (relevantLines strict (n.all, defined_ n)) = true
        · rw [if_pos h2, relevant_lines]
          refine ⟨holds_written strict n h, ?_⟩
          rw [← relevant_lines]
          simpa using hd.mp h2
        · rw [if_neg h2]
          have he : (relevantLines strict (readFile ls)).map symbol = (relevantLines strict (n.all, defined_ n)).map symbol := by
            apply Classical.byContradiction
            intro hne
            exact h2 (hd.mpr hne)
          exact ⟨he, by simp [he]⟩
      · rw [if_pos h1]
        refine ⟨by rw [relevant_lines]; exact holds_written strict n h, ?_⟩
        have : (relevantLines strict (readFile ls)).map symbol ≠ (relevantLines strict (n.all, defined_ n)).map symbol := by
          intro e
          exact h1 (by simpa using congrArg List.length e)
        simpa using this

theorem history_relink (strict : Bool) (h : List (Option Nm)) : ∀ (file : Option (List Str)) (last : Option (List (Str × Option Str))),
    Holds strict file last → (∀ n, some n ∈ h → Proper n) → (history strict file h).1 = relink strict last h := by
  induction h with
  | nil => intro _ _ _ _; rfl
  | cons nm h ih =>
    intro file last hh hp
    cases nm with
    | none =>
      simp only [history, relink, step]
      rw [ih file last hh (fun n hn => hp n (by simp [hn]))]
    | some n =>
      obtain ⟨h1, h2⟩ := step_holds strict file last n (hp n (by simp)) hh
      simp only [history, relink]
      rw [h2, ih _ _ h1 (fun m hm => hp m (by simp [hm]))]

/-- **C136.** In all histories of builds, users of the library are linked again exactly when the relevant symbols are not those of the last
build in which they could be listed. -/
theorem C136_relinked (strict : Bool) (h : List (Option Nm)) (hp : ∀ n, some n ∈ h → Proper n) :
    (history strict none h).1 = relink strict none h :=
  history_relink strict h none none trivial hp

/-- **C136.** In particular, building a library again with the same relevant symbols, at other addresses, does not touch the file. -/
theorem C136_unchanged (strict : Bool) (n m : Nm) (hn : Proper n) (h : relevant strict n = relevant strict m) (hm : Proper m) :
    step strict (some (fileLines n)) (some m) = (some (fileLines n), false) := by
  have h2 := (step_holds strict _ _ m hm (holds_written strict n hn)).2
  rw [h] at h2
  simp only [ne_eq, not_true_eq_false, decide_false] at h2
  unfold step at h2 ⊢
  simp only at h2 ⊢
  split at h2
  · cases h2
  · rename_i h3
    rw [if_neg h3]
    split at h2
    · cases h2
    · rename_i h4
      rw [if_neg h4]

/-- **C136.** The symbol file has the symbols, with their addresses, of some earlier build. -/
theorem C136_file (strict : Bool) (h : List (Option Nm)) (file : Option (List Str)) :
    (history strict file h).2 = file ∨ ∃ n, some n ∈ h ∧ (history strict file h).2 = some (fileLines n) := by
  induction h generalizing file with
  | nil => exact Or.inl rfl
  | cons nm h ih =>
    have hs : (step strict file nm).1 = file ∨ ∃ n, nm = some n ∧ (step strict file nm).1 = some (fileLines n) := by
      cases nm with
      | none => exact Or.inl rfl
      | some n =>
        cases file with
        | none => exact Or.inr ⟨n, rfl, rfl⟩
        | some ls =>
          simp only [step]
          split
          · exact Or.inr ⟨n, rfl, rfl⟩
          · split
            · exact Or.inr ⟨n, rfl, rfl⟩
            · exact Or.inl rfl
    simp only [history]
    rcases ih (step strict file nm).1 with e | ⟨n, h1, e⟩
    · rw [e]
      rcases hs with hs | ⟨n, h1, hs⟩
      · exact Or.inl hs
      · exact Or.inr ⟨n, by simp [h1], hs⟩
    · exact Or.inr ⟨n, by simp [h1], e⟩

end Verif.Symbols
