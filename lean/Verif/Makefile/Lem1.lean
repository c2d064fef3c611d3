import Verif.Makefile.Want
import Verif.Shell.Props
/-!
# Text as characters and references to variables
-/
namespace Verif.Makefile

open Verif.Makefile.Spec
open Verif.Shell (shellQuoteUnix replaceQuotes)

theorem replaceAll_nil (b a : Str) : replaceAll [] b a = [] := by
  unfold replaceAll; rw [replaceFrom]

theorem replaceAll_cons (b a : Str) (c : Char) (s : Str) (h : ¬ b <+: c :: s) :
    replaceAll (c :: s) b a = c :: replaceAll s b a := by
  unfold replaceAll
  rw [replaceFrom, if_neg (by simpa [List.isPrefixOf_iff_prefix] using h)]

theorem replaceFrom_skip (b a : Str) (w s : Str) :
    replaceFrom b a w.length (w ++ s) = replaceFrom b a 0 s := by
  induction w with
  | nil => rfl
  | cons c w ih => rw [List.cons_append, List.length_cons, replaceFrom]; exact ih

theorem replaceAll_match (b a s : Str) (h : b ≠ []) :
    replaceAll (b ++ s) b a = a ++ replaceAll s b a := by
  obtain ⟨c, w, rfl⟩ : ∃ c w, b = c :: w := by
    cases b with
    | nil => exact absurd rfl h
    | cons c w => exact ⟨c, w, rfl⟩
  unfold replaceAll
  rw [List.cons_append, replaceFrom, if_pos (by rw [← List.cons_append]; simp [List.isPrefixOf_iff_prefix])]
  rw [show (c :: w).length - 1 = w.length by simp, replaceFrom_skip]

/-- Text without the first character of what is replaced stays. -/
theorem replaceAll_pass (c : Char) (b a w s : Str) (h : c ∉ w) :
    replaceAll (w ++ s) (c :: b) a = w ++ replaceAll s (c :: b) a := by
  induction w with
  | nil => rfl
  | cons d w ih =>
    rw [List.cons_append, replaceAll_cons, ih (fun hc => h (by simp [hc])), List.cons_append]
    rw [List.cons_prefix_cons]
    rintro ⟨rfl, -⟩
    exact h (by simp)

/-- Replacing a single character. -/
theorem replaceAll_char (c : Char) (a s : Str) :
    replaceAll s [c] a = s.flatMap fun d => if d = c then a else [d] := by
  induction s with
  | nil => exact replaceAll_nil _ _
  | cons d s ih =>
    by_cases h : d = c
    · subst h
      have := replaceAll_match [d] a s (by simp)
      rw [List.singleton_append] at this
      rw [this, ih]; simp
    · rw [replaceAll_cons _ _ _ _ (by rw [List.cons_prefix_cons]; exact fun hh => h hh.1.symm), ih]
      simp [h]

/-- The three variables that stand for directories. -/
inductive Var where
  | src | build | install
  deriving DecidableEq

def Var.name : Var → Str
  | .src => ['S', 'R', 'C', 'D', 'I', 'R']
  | .build => ['B', 'U', 'I', 'L', 'D', '_', 'R', 'O', 'O', 'T']
  | .install => ['I', 'N', 'S', 'T', 'A', 'L', 'L', '_', 'R', 'O', 'O', 'T']

/-- What follows the dollar sign. -/
def Var.tail (v : Var) : Str := '(' :: v.name ++ [')']

def Var.ref (v : Var) : Str := '$' :: v.tail

theorem tail_dollar (v : Var) : '$' ∉ v.tail := by cases v <;> decide

theorem ref_slash (v : Var) : '/' ∉ v.ref := by cases v <;> decide

theorem ref_quote (v : Var) : '\'' ∉ v.ref := by cases v <;> decide

theorem ref_newline (v : Var) : '\n' ∉ v.ref := by cases v <;> decide

theorem tail_ne (v w : Var) (h : v ≠ w) (s : Str) : ¬ v.tail <+: w.tail ++ s := by
  cases v <;> cases w <;> first | exact absurd rfl h |
    (simp only [Var.tail, Var.name, List.cons_append, List.cons_prefix_cons]; exact fun hh => absurd hh.2.1 (by decide))

inductive Tok where
  | ch (c : Char) | var (v : Var)
  deriving DecidableEq

def Tok.text : Tok → Str
  | .ch c => [c]
  | .var v => v.ref

def render (l : List Tok) : Str := l.flatMap Tok.text

/-- The text after the doubling of the dollar signs, of which those of the variables in `k` have been
undone. -/
def Tok.doubled (k : Var → Bool) : Tok → Str
  | .ch c => if c = '$' then ['$', '$'] else [c]
  | .var v => if k v then v.ref else '$' :: v.ref

def doubled (k : Var → Bool) (l : List Tok) : Str := l.flatMap (Tok.doubled k)

/-- Every reference is a token of its own. -/
def Canon : List Tok → Prop
  | [] => True
  | .ch c :: l => (c = '$' → ∀ v : Var, ¬ v.tail <+: render l) ∧ Canon l
  | .var _ :: l => Canon l

theorem render_cons (t : Tok) (l : List Tok) : render (t :: l) = t.text ++ render l := by
  simp [render]

theorem doubled_cons (k : Var → Bool) (t : Tok) (l : List Tok) :
    doubled k (t :: l) = t.doubled k ++ doubled k l := by simp [doubled]

theorem render_append (l m : List Tok) : render (l ++ m) = render l ++ render m := by
  simp [render]

theorem render_chars (s : Str) : render (s.map Tok.ch) = s := by
  induction s with
  | nil => rfl
  | cons c s ih => rw [List.map_cons, render_cons, ih]; rfl

/-- Text without dollar signs at the beginning consists of characters. -/
theorem prefix_doubled (k : Var → Bool) (w : Str) (hw : '$' ∉ w) (l : List Tok)
    (h : w <+: doubled k l) : w <+: render l := by
  induction w generalizing l with
  | nil => exact List.nil_prefix
  | cons c w ih =>
    cases l with
    | nil => exact absurd (List.prefix_nil.mp h) (by simp)
    | cons t l =>
      rw [doubled_cons] at h
      have hc : c ≠ '$' := fun hh => hw (by simp [hh])
      cases t with
      | ch d =>
        rw [Tok.doubled] at h
        split at h
        · rw [List.cons_append, List.cons_prefix_cons] at h
          exact absurd h.1 hc
        · rw [List.singleton_append, List.cons_prefix_cons] at h
          rw [render_cons]
          show c :: w <+: d :: render l
          rw [List.cons_prefix_cons]
          exact ⟨h.1, ih (fun hh => hw (by simp [hh])) l h.2⟩
      | var v =>
        rw [Tok.doubled] at h
        split at h <;> · rw [Var.ref, List.cons_append, List.cons_prefix_cons] at h; exact absurd h.1 hc

theorem doubled_none (l : List Tok) :
    replaceAll (render l) ['$'] ['$', '$'] = doubled (fun _ => false) l := by
  rw [replaceAll_char]
  induction l with
  | nil => rfl
  | cons t l ih =>
    rw [render_cons, List.flatMap_append, ih, doubled_cons]
    congr 1
    cases t with
    | ch c => simp [Tok.text, Tok.doubled]
    | var v => cases v <;> decide

/-- Undoing the doubling for one more variable. -/
theorem undouble (k : Var → Bool) (v : Var) (hv : k v = false) (l : List Tok) (hl : Canon l) :
    replaceAll (doubled k l) ('$' :: v.ref) v.ref = doubled (fun w => k w || (w == v)) l := by
  induction l with
  | nil => exact replaceAll_nil _ _
  | cons t l ih =>
    rw [doubled_cons, doubled_cons]
    cases t with
    | ch c =>
      have ih := ih hl.2
      by_cases hc : c = '$'
      · subst hc
        have h1 : ∀ w : Var, ¬ w.tail <+: render l := hl.1 rfl
        have e1 : Tok.doubled k (.ch '$') = ['$', '$'] := rfl
        have e2 : Tok.doubled (fun w => k w || (w == v)) (.ch '$') = ['$', '$'] := rfl
        rw [e1, e2]
        show replaceAll ('$' :: '$' :: doubled k l) _ _ = '$' :: '$' :: _
        have h2 : ¬ '$' :: v.ref <+: '$' :: '$' :: doubled k l := by
          simp only [Var.ref, List.cons_prefix_cons, true_and]
          exact fun h => h1 v (prefix_doubled k _ (tail_dollar v) l h)
        have h3 : ¬ '$' :: v.ref <+: '$' :: doubled k l := by
          simp only [List.cons_prefix_cons, true_and]
          intro h
          cases l with
          | nil => exact absurd (List.prefix_nil.mp h) (by simp [Var.ref])
          | cons t l =>
            rw [doubled_cons] at h
            cases t with
            | ch d =>
              by_cases hd : d = '$'
              · subst hd
                have e1 : Tok.doubled k (.ch '$') = ['$', '$'] := rfl
                rw [e1] at h
                simp only [Var.ref, Var.tail, List.cons_append, List.cons_prefix_cons] at h
                exact absurd h.2.1 (by decide)
              · have e1 : Tok.doubled k (.ch d) = [d] := by rw [Tok.doubled, if_neg hd]
                rw [e1] at h
                simp only [Var.ref, List.cons_append, List.cons_prefix_cons] at h
                exact absurd h.1.symm hd
            | var w =>
              rw [Tok.doubled] at h
              split at h
              · rename_i hk
                simp only [Var.ref, List.cons_append, List.cons_prefix_cons] at h
                refine tail_ne v w (fun hh => ?_) _ h.2
                subst hh; rw [hv] at hk; exact absurd hk (by decide)
              · simp only [Var.ref, Var.tail, List.cons_append, List.cons_prefix_cons] at h
                exact absurd h.2.1 (by decide)
        rw [replaceAll_cons _ _ _ _ h2, replaceAll_cons _ _ _ _ h3, ih]
        rfl
      · have e1 : ∀ k, Tok.doubled k (.ch c) = [c] := fun k => by rw [Tok.doubled, if_neg hc]
        rw [e1, e1, List.singleton_append, List.singleton_append, replaceAll_cons, ih]
        rw [List.cons_prefix_cons]
        exact fun hh => hc hh.1.symm
    | var w =>
      have ih := ih hl
      by_cases hw : w = v
      · subst hw
        have e1 : Tok.doubled k (.var w) = '$' :: w.ref := by
          rw [Tok.doubled, hv]; simp
        have e2 : Tok.doubled (fun u => k u || (u == w)) (.var w) = w.ref := by
          rw [Tok.doubled]; simp
        rw [e1, e2, replaceAll_match _ _ _ (by simp), ih]
      · have e : Tok.doubled (fun u => k u || (u == v)) (.var w) = Tok.doubled k (.var w) := by
          simp [Tok.doubled, hw]
        rw [e, ← ih]
        have hpass : ∀ s, replaceAll (w.tail ++ s) ('$' :: v.ref) v.ref = w.tail ++ replaceAll s ('$' :: v.ref) v.ref :=
          fun s => replaceAll_pass _ _ _ _ _ (tail_dollar w)
        have h2 : ∀ s, replaceAll (w.ref ++ s) ('$' :: v.ref) v.ref = w.ref ++ replaceAll s ('$' :: v.ref) v.ref := by
          intro s
          rw [Var.ref, List.cons_append, replaceAll_cons, hpass, ← List.cons_append]
          rw [Var.ref, Var.tail, Var.tail]
          simp only [List.cons_append, List.cons_prefix_cons]
          exact fun hh => absurd hh.2.1 (by decide)
        rw [Tok.doubled]
        split
        · exact h2 _
        · rw [List.cons_append, replaceAll_cons, h2, List.cons_append]
          rw [Var.ref, Var.ref]
          simp only [List.cons_append, List.cons_prefix_cons]
          exact fun hh => tail_ne v w (fun e => hw e.symm) _ hh.2.2

/-- What the four replacements after the quoting for the shell do. -/
theorem unquoted (l : List Tok) (hl : Canon l) :
    replaceAll (replaceAll (replaceAll (replaceAll (render l) "$".toList "$$".toList) "$$(SRCDIR)".toList
      "$(SRCDIR)".toList) "$$(BUILD_ROOT)".toList "$(BUILD_ROOT)".toList) "$$(INSTALL_ROOT)".toList
      "$(INSTALL_ROOT)".toList = doubled (fun _ => true) l := by
  have h0 := doubled_none l
  have h1 := undouble (fun _ => false) .src rfl l hl
  have h2 := undouble (fun w => false || (w == .src)) .build rfl l hl
  have h3 := undouble (fun w => (false || (w == .src)) || (w == .build)) .install rfl l hl
  have e : (fun w => ((false || (w == Var.src)) || (w == .build)) || (w == .install)) = fun _ => true := by
    funext w; cases w <;> rfl
  rw [e] at h3
  rw [← h3, ← h2, ← h1, ← h0]
  rfl

/-! ### Expansion -/

/-- The value of a text with references. -/
def value (d : Var → Str) (l : List Tok) : Str := l.flatMap fun t => match t with
  | .ch c => [c]
  | .var v => d v

/-- The variables in a text have these values. -/
def Known (vars : List (Str × Str)) (d : Var → Str) (l : List Tok) : Prop :=
  ∀ v, Tok.var v ∈ l → vars.lookup v.name = some (d v)

theorem expand_name (vars : List (Str × Str)) (n w s : Str) (h : ')' ∉ w) :
    expandAt vars (.name n) (w ++ ')' :: s) =
      match vars.lookup (n ++ w) with
      | none => none
      | some v => (expandAt vars .text s).map (v ++ ·) := by
  induction w generalizing n with
  | nil => rw [List.nil_append, expandAt, if_pos rfl, List.append_nil]; rfl
  | cons c w ih =>
    rw [List.cons_append, expandAt, if_neg (fun hh => h (by simp [hh])), ih _ (fun hh => h (by simp [hh]))]
    simp

theorem expand_ref (vars : List (Str × Str)) (v : Var) (x s : Str) (h : vars.lookup v.name = some x) :
    expandAt vars .text (v.ref ++ s) = (expandAt vars .text s).map (x ++ ·) := by
  have hn : ')' ∉ v.name := by cases v <;> decide
  have e : v.ref ++ s = '$' :: '(' :: (v.name ++ ')' :: s) := by simp [Var.ref, Var.tail]
  rw [e, expandAt, if_pos rfl, expandAt, if_neg (by decide), if_pos rfl, expand_name _ _ _ _ hn, List.nil_append, h]

theorem expand_char (vars : List (Str × Str)) (c : Char) (s : Str) (h : c ≠ '$') (h' : c ≠ '\n') :
    expandAt vars .text (c :: s) = (expandAt vars .text s).map (c :: ·) := by
  rw [expandAt, if_neg h, if_neg h']

theorem expand_plain (vars : List (Str × Str)) (w s : Str) (h : '$' ∉ w) (h' : '\n' ∉ w) :
    expandAt vars .text (w ++ s) = (expandAt vars .text s).map (w ++ ·) := by
  induction w with
  | nil => simp
  | cons c w ih =>
    rw [List.cons_append, expand_char vars c _ (fun hh => h (by simp [hh])) (fun hh => h' (by simp [hh])),
      ih (fun hh => h (by simp [hh])) (fun hh => h' (by simp [hh]))]
    simp [Option.map_map, Function.comp_def]

theorem expand_doubled (vars : List (Str × Str)) (d : Var → Str) (l : List Tok) (s : Str)
    (h : Known vars d l) (h' : Tok.ch '\n' ∉ l) :
    expandAt vars .text (doubled (fun _ => true) l ++ s) =
      (expandAt vars .text s).map (value d l ++ ·) := by
  induction l with
  | nil => simp [doubled, value]
  | cons t l ih =>
    have ih := ih (fun v hv => h v (by simp [hv])) (fun hh => h' (by simp [hh]))
    rw [doubled_cons, List.append_assoc]
    cases t with
    | ch c =>
      by_cases hc : c = '$'
      · subst hc
        have e1 : Tok.doubled (fun _ => true) (.ch '$') = ['$', '$'] := rfl
        rw [e1]
        show expandAt vars .text ('$' :: '$' :: (doubled (fun _ => true) l ++ s)) = _
        rw [expandAt, if_pos rfl, expandAt, if_pos rfl, ih]
        simp [Option.map_map, Function.comp_def, value]
      · have e1 : Tok.doubled (fun _ => true) (.ch c) = [c] := by rw [Tok.doubled, if_neg hc]
        rw [e1, List.singleton_append, expand_char _ _ _ hc (fun hh => h' (by simp [hh])), ih]
        simp [Option.map_map, Function.comp_def, value]
    | var v =>
      have e1 : Tok.doubled (fun _ => true) (.var v) = v.ref := rfl
      rw [e1, expand_ref vars v _ _ (h v (by simp)), ih]
      simp [Option.map_map, Function.comp_def, value]

end Verif.Makefile
