import Verif.CMakeExport.Spec

/-! # The written lines are read as commands -/

namespace Verif.CMakeExport

theorem isWord_iff {c : Char} (h : isWord c = true) : isBlank c = false ∧ isPlain c = true ∧ c ≠ '(' ∧ c ≠ ')' ∧ c ≠ '#' ∧ c ≠ '{' ∧ c ≠ '}' := by
  simp [isWord] at h
  grind

theorem isPlain_iff {c : Char} (h : isPlain c = true) : c ≠ '"' ∧ c ≠ '\\' ∧ c ≠ '$' ∧ c ≠ ';' := by
  simp [isPlain] at h
  grind

theorem step_args_word {d n as} {c : Char} (h : isWord c = true) : step (.args d n as) c = .unquoted d n as [c] := by
  obtain ⟨h1, h2, h3, h4, h5, _⟩ := isWord_iff h
  obtain ⟨g1, g2, _⟩ := isPlain_iff h2
  simp [step, h1, h3, h4, h5, g1, g2]

theorem step_unquoted_word {d n as acc} {c : Char} (h : isWord c = true) :
    step (.unquoted d n as acc) c = .unquoted d n as (acc ++ [c]) := by
  obtain ⟨h1, h2, h3, h4, h5, _⟩ := isWord_iff h
  obtain ⟨g1, g2, _⟩ := isPlain_iff h2
  simp [step, h1, h3, h4, h5, g1, g2]

theorem scan_unquoted {d n as acc} {w : CText} (h : ∀ c ∈ w, isWord c = true) :
    w.foldl step (.unquoted d n as acc) = .unquoted d n as (acc ++ w) := by
  induction w generalizing acc with
  | nil => simp
  | cons c w ih =>
    rw [List.foldl_cons, step_unquoted_word (h c (by simp)), ih (fun x hx => h x (by simp [hx]))]
    simp

theorem scan_word {d n as} {w : CText} (h : Word w) : w.foldl step (.args d n as) = .unquoted d n as w := by
  obtain ⟨hne, h⟩ := h
  cases w with
  | nil => exact absurd rfl hne
  | cons c w =>
    rw [List.foldl_cons, step_args_word (h c (by simp)), scan_unquoted (fun x hx => h x (by simp [hx]))]
    rfl

theorem scan_inside {d n as acc} {v : CText} (h : ∀ c ∈ v, c ≠ '"' ∧ c ≠ '\\') :
    v.foldl step (.quoted d n as acc) = .quoted d n as (acc ++ v) := by
  induction v generalizing acc with
  | nil => simp
  | cons c v ih =>
    have := h c (by simp)
    rw [List.foldl_cons]
    have e : step (.quoted d n as acc) c = .quoted d n as (acc ++ [c]) := by simp [step, this]
    rw [e, ih (fun x hx => h x (by simp [hx]))]
    simp

theorem scan_quote {d n as} {v : CText} (h : ∀ c ∈ v, c ≠ '"' ∧ c ≠ '\\') :
    (quote v).foldl step (.args d n as) = .closed d n (as ++ [⟨true, v⟩]) := by
  unfold quote
  rw [List.cons_append, List.foldl_cons, List.foldl_append]
  have e : step (.args d n as) '"' = .quoted d n as [] := rfl
  rw [e, scan_inside h]
  rfl

/-- How an argument is written -/
def Arg.text (a : Arg) : CText := if a.quoted then quote a.raw else a.raw

def Arg.good (a : Arg) : Prop := if a.quoted then ∀ c ∈ a.raw, c ≠ '"' ∧ c ≠ '\\' else Word a.raw

/-- An argument, and a blank -/
theorem scan_arg {d n as} {a : Arg} (h : a.good) {b : Char} (hb : isBlank b = true) :
    (a.text ++ [b]).foldl step (.args d n as) = .args d n (as ++ [a]) := by
  rw [List.foldl_append]
  unfold Arg.good at h
  unfold Arg.text
  rcases a with ⟨q, r⟩
  cases q with
  | true =>
    simp only [if_true] at h ⊢
    rw [scan_quote h]
    simp [step, hb]
  | false =>
    simp only [Bool.false_eq_true, if_false] at h ⊢
    rw [scan_word h]
    simp [step, hb]

/-- An argument, and the end of the command -/
theorem scan_last {d n as} {a : Arg} (h : a.good) :
    (a.text ++ [')']).foldl step (.args d n as) = .top (d ++ [(n, as ++ [a])]) := by
  rw [List.foldl_append]
  unfold Arg.good at h
  unfold Arg.text
  rcases a with ⟨q, r⟩
  cases q with
  | true =>
    simp only [if_true] at h ⊢
    rw [scan_quote h]
    rfl
  | false =>
    simp only [Bool.false_eq_true, if_false] at h ⊢
    rw [scan_word h]
    rfl

def word (w : CText) : Arg := ⟨false, w⟩

theorem good_word {w : CText} (h : Word w) : (word w).good := h

theorem scan_args {d n as b} {l : List Arg} (hb : isBlank b = true) (h : ∀ a ∈ l, a.good) :
    (l.flatMap (fun a => a.text ++ [b])).foldl step (.args d n as) = .args d n (as ++ l) := by
  induction l generalizing as with
  | nil => simp
  | cons a l ih =>
    rw [List.flatMap_cons, List.foldl_append, scan_arg (h a (by simp)) hb, ih (fun x hx => h x (by simp [hx]))]
    simp

theorem scan_items {d n as} {l : List Arg} (h : ∀ a ∈ l, a.good) :
    ((l.map (fun a => "  ".toList ++ a.text)).flatMap (· ++ ['\n'])).foldl step (.args d n as) = .args d n (as ++ l) := by
  induction l generalizing as with
  | nil => simp
  | cons a l ih =>
    rw [List.map_cons, List.flatMap_cons, List.foldl_append, List.append_assoc, List.foldl_append]
    have e : "  ".toList.foldl step (.args d n as) = .args d n as := rfl
    rw [e, scan_arg (h a (by simp)) rfl, ih (fun x hx => h x (by simp [hx]))]
    simp

/-- A command on one line -/
theorem scan_line {d} {cmd : CText} {l : List Arg} {a : Arg} (hc : ∀ d, (cmd ++ ['(']).foldl step (.top d) = .args d cmd [])
    (h : ∀ a ∈ l, a.good) (ha : a.good) :
    ((cmd ++ ['('] ++ l.flatMap (fun a => a.text ++ [' ']) ++ (a.text ++ [')'])) ++ ['\n']).foldl step (.top d) =
      .top (d ++ [(cmd, l ++ [a])]) := by
  rw [List.foldl_append (l' := ['\n']), List.foldl_append (l' := a.text ++ [')']),
    List.foldl_append (l' := l.flatMap _), hc, scan_args rfl h, scan_last ha]
  simp [step, isBlank]

/-- `writeCommand` -/
theorem scan_command {d} {cmd pkg : CText} {l : List Arg} (hc : ∀ d, (cmd ++ ['(']).foldl step (.top d) = .args d cmd [])
    (hp : Word pkg) (h : ∀ a ∈ l, a.good) :
    ((writeCommand pkg cmd (l.map Arg.text)).flatMap (· ++ ['\n'])).foldl step (.top d) =
      .top (d ++ if l = [] then [] else [(cmd, [word pkg, word "INTERFACE".toList] ++ l)]) := by
  unfold writeCommand
  by_cases hl : l = []
  · subst hl; simp
  · rw [if_neg (by simpa using hl), if_neg hl]
    rw [List.cons_append, List.flatMap_cons, List.flatMap_append, List.foldl_append, List.foldl_append, List.map_map]
    have e : ((cmd ++ ['('] ++ pkg ++ " INTERFACE".toList) ++ ['\n']) =
        (cmd ++ ['(']) ++ ((word pkg).text ++ [' '] ++ ((word "INTERFACE".toList).text ++ ['\n'])) := by
      simp [word, Arg.text]
    rw [e, List.foldl_append, List.foldl_append, hc, scan_arg (good_word hp) rfl,
      scan_arg (a := word "INTERFACE".toList) ⟨by decide, by decide⟩ rfl]
    have e2 := scan_items (d := d) (n := cmd) (as := [] ++ [word pkg] ++ [word "INTERFACE".toList]) h
    have e3 : ((fun x => "  ".toList ++ x) ∘ Arg.text) = fun a => "  ".toList ++ a.text := rfl
    rw [e3, e2]
    simp [step, isBlank]

end Verif.CMakeExport
