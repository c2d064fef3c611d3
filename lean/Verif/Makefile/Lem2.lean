import Verif.Makefile.Lem1
/-!
# Directories as variables, and quoting
-/
namespace Verif.Makefile

open Verif.Makefile.Spec
open Verif.Shell (shellQuoteUnix replaceQuotes iqmUnix isSpecialChar hasSpecialChars)

theorem value_cons (d : Var → Str) (t : Tok) (l : List Tok) :
    value d (t :: l) = (match t with | .ch c => [c] | .var v => d v) ++ value d l := by
  simp only [value, List.flatMap_cons]
  cases t <;> rfl

theorem value_append (d : Var → Str) (l m : List Tok) : value d (l ++ m) = value d l ++ value d m := by
  simp [value]

theorem value_chars (d : Var → Str) (s : Str) : value d (s.map Tok.ch) = s := by
  induction s with
  | nil => rfl
  | cons c s ih => rw [List.map_cons, value_cons, ih]; rfl

/-- Text without references. -/
theorem canon_chars (s : Str) (h : ∀ v : Var, ¬ v.ref <:+: s) : Canon (s.map Tok.ch) := by
  induction s with
  | nil => trivial
  | cons c s ih =>
    refine ⟨?_, ih fun v hv => h v (hv.trans (List.suffix_cons c s).isInfix)⟩
    rintro rfl v hv
    rw [render_chars] at hv
    refine h v (List.IsPrefix.isInfix ?_)
    rw [Var.ref, List.cons_prefix_cons]
    exact ⟨rfl, hv⟩

theorem canon_dollarless (s : Str) (h : '$' ∉ s) (l : List Tok) (hl : Canon l) :
    Canon (s.map Tok.ch ++ l) := by
  induction s with
  | nil => exact hl
  | cons c s ih =>
    refine ⟨?_, ih (fun hc => h (by simp [hc]))⟩
    rintro rfl
    exact absurd h (by simp)

/-- A text that begins with characters other than the dollar sign. -/
theorem split_chars (w : Str) (hw : '$' ∉ w) (l : List Tok) (h : w <+: render l) :
    ∃ m, l = w.map Tok.ch ++ m := by
  induction w generalizing l with
  | nil => exact ⟨l, rfl⟩
  | cons c w ih =>
    cases l with
    | nil => exact absurd (List.prefix_nil.mp h) (by simp)
    | cons t l =>
      rw [render_cons] at h
      have hc : c ≠ '$' := fun hh => hw (by simp [hh])
      cases t with
      | ch e =>
        rw [Tok.text, List.singleton_append, List.cons_prefix_cons] at h
        obtain ⟨rfl, h⟩ := h
        obtain ⟨m, rfl⟩ := ih (fun hh => hw (by simp [hh])) l h
        exact ⟨m, rfl⟩
      | var v =>
        simp only [Tok.text, Var.ref, List.cons_append, List.cons_prefix_cons] at h
        exact absurd h.1 hc

/-- What begins the text after a replacement by a reference began it before. -/
theorem prefix_replaceAll (dir : Str) (hd : dir ≠ []) (v : Var) (w : Str) (hw : '$' ∉ w) (s : Str)
    (h : w <+: replaceAll s dir v.ref) : w <+: s := by
  induction w generalizing s with
  | nil => exact List.nil_prefix
  | cons c w ih =>
    have hc : c ≠ '$' := fun hh => hw (by simp [hh])
    cases s with
    | nil => rw [replaceAll_nil] at h; exact h
    | cons e s =>
      by_cases hp : dir <+: e :: s
      · obtain ⟨r, hr⟩ := hp
        rw [← hr, replaceAll_match _ _ _ hd] at h
        simp only [Var.ref, List.cons_append, List.cons_prefix_cons] at h
        exact absurd h.1 hc
      · rw [replaceAll_cons _ _ _ _ hp, List.cons_prefix_cons] at h
        rw [List.cons_prefix_cons]
        exact ⟨h.1, ih (fun hh => hw (by simp [hh])) s h.2⟩

/-- Putting a reference to a variable in the place of its value. -/
theorem replaced (d : Var → Str) (v : Var) (hd : (d v).head? = some '/') (hn : '$' ∉ d v) (n : Nat) (l : List Tok)
    (hlen : l.length ≤ n) (hl : Canon l) :
    ∃ m, render m = replaceAll (render l) (d v) v.ref ∧ Canon m ∧ value d m = value d l ∧
      (∀ u, Tok.var u ∈ m → Tok.var u ∈ l ∨ u = v) := by
  obtain ⟨dt, hdt⟩ : ∃ dt, d v = '/' :: dt := by
    cases h : d v with
    | nil => rw [h] at hd; exact absurd hd (by simp)
    | cons c t => rw [h] at hd; exact ⟨t, by rw [Option.some.inj hd]⟩
  induction n generalizing l with
  | zero =>
    cases l with
    | nil => exact ⟨[], by rw [show render [] = [] from rfl, replaceAll_nil], trivial, rfl, by simp⟩
    | cons t l => exact absurd hlen (by simp)
  | succ n ih =>
    cases l with
    | nil => exact ⟨[], by rw [show render [] = [] from rfl, replaceAll_nil], trivial, rfl, by simp⟩
    | cons t l =>
      by_cases hp : d v <+: render (t :: l)
      · obtain ⟨r, hr⟩ := split_chars _ hn _ hp
        have hrl : r.length ≤ n := by
          have h1 : (t :: l).length = (d v).length + r.length := by rw [hr]; simp
          rw [hdt] at h1
          simp only [List.length_cons] at h1 hlen
          omega
        have hcr : Canon r := by
          rw [hr] at hl
          clear hr hp ih hrl hlen
          generalize d v = w at hl
          induction w with
          | nil => exact hl
          | cons c w ih => exact ih hl.2
        obtain ⟨m, h1, h2, h3, h4⟩ := ih r hrl hcr
        refine ⟨.var v :: m, ?_, h2, ?_, ?_⟩
        · rw [hr, render_append, render_chars, replaceAll_match _ _ _ (by rw [hdt]; simp), render_cons, h1]
          rfl
        · rw [hr, value_append, value_chars, value_cons, h3]
        · intro u hu
          rcases List.mem_cons.mp hu with hu | hu
          · exact .inr (by injection hu)
          · rcases h4 u hu with h | h
            · exact .inl (by rw [hr]; exact List.mem_append_right _ h)
            · exact .inr h
      · have hcl : Canon l := by cases t <;> first | exact hl.2 | exact hl
        obtain ⟨m, h1, h2, h3, h4⟩ := ih l (by simpa using hlen) hcl
        refine ⟨t :: m, ?_, ?_, by rw [value_cons, value_cons, h3], ?_⟩
        · rw [render_cons, render_cons, h1]
          cases t with
          | ch c =>
            rw [Tok.text, List.singleton_append, List.singleton_append, replaceAll_cons]
            rw [render_cons] at hp
            exact hp
          | var u =>
            rw [hdt]
            exact (replaceAll_pass _ _ _ _ _ (ref_slash u)).symm
        · cases t with
          | ch c =>
            refine ⟨?_, h2⟩
            intro hc u hu
            rw [h1] at hu
            exact hl.1 hc u (prefix_replaceAll _ (by rw [hdt]; simp) v _ (tail_dollar u) _ hu)
          | var u => exact h2
        · intro u hu
          rcases List.mem_cons.mp hu with hu | hu
          · exact .inl (by rw [hu]; simp)
          · rcases h4 u hu with h | h
            · exact .inl (by simp [h])
            · exact .inr h

theorem ch_value (d : Var → Str) (l : List Tok) (c : Char) (h : Tok.ch c ∈ l) : c ∈ value d l := by
  simp only [value, List.mem_flatMap]
  exact ⟨_, h, by simp⟩

/-- The values of the three variables. -/
def dirs (p : Project) : Var → Str
  | .src => p.srcDir
  | .build => p.buildDir
  | .install => p.installRoot

/-- The variables that the Makefile defines have the right values. -/
def VarsOk (p : Project) (vars : List (Str × Str)) : Prop :=
  ∀ v : Var, (v = .install → p.installRoot ≠ []) → vars.lookup v.name = some (dirs p v)

theorem plain_dollar {d : Str} (h : PlainDir d) : '$' ∉ d := fun hc => (h.2 _ hc).2.2.2.1 (by decide)

theorem text_refs {s : Str} (h : PlainText s) (v : Var) : ¬ v.ref <:+: s := by
  cases v
  · exact h.2.1
  · exact h.2.2.1
  · exact h.2.2.2

/-- The replacement of the directories does not change the meaning of a text. -/
theorem brute (p : Project) (hp : Plain p) (s : Str) (hs : PlainText s) :
    ∃ m, render m = bruteForce p s ∧ Canon m ∧ value (dirs p) m = s ∧
      (∀ u, Tok.var u ∈ m → u = .install → p.installRoot ≠ []) ∧ Tok.ch '\n' ∉ m := by
  have h0 := canon_chars s (text_refs hs)
  have step1 : ∃ m, render m = (if p.installRoot = [] then s else replaceAll s p.installRoot "$(INSTALL_ROOT)".toList) ∧
      Canon m ∧ value (dirs p) m = s ∧ ∀ u, Tok.var u ∈ m → u = .install → p.installRoot ≠ [] := by
    split
    · exact ⟨s.map .ch, render_chars s, h0, value_chars _ s, by simp⟩
    · rename_i hne
      have hd := hp.installRoot.resolve_left hne
      obtain ⟨m, h1, h2, h3, h4⟩ := replaced (dirs p) .install hd.1 (plain_dollar hd) _ _ (Nat.le_refl _) h0
      rw [render_chars] at h1
      rw [value_chars] at h3
      exact ⟨m, h1, h2, h3, fun _ _ _ => hne⟩
  obtain ⟨m1, a1, a2, a3, a4⟩ := step1
  obtain ⟨m2, b1, b2, b3, b4⟩ := replaced (dirs p) .build hp.buildDir.1 (plain_dollar hp.buildDir) _ _ (Nat.le_refl _) a2
  obtain ⟨m3, c1, c2, c3, c4⟩ := replaced (dirs p) .src hp.srcDir.1 (plain_dollar hp.srcDir) _ _ (Nat.le_refl _) b2
  have hval : value (dirs p) m3 = s := by rw [c3, b3, a3]
  refine ⟨m3, ?_, c2, hval, ?_, fun hm => hs.1 (by rw [← hval]; exact ch_value _ _ _ hm)⟩
  · rw [c1, b1, a1]; rfl
  · intro u hu e
    rcases c4 u hu with h | h
    · rcases b4 u h with h | h
      · exact a4 u h e
      · rw [h] at e; exact absurd e (by decide)
    · rw [h] at e; exact absurd e (by decide)

/-! ### Quoting -/

/-- The quoting of quotes. -/
def quoteToks (l : List Tok) : List Tok := l.flatMap fun t =>
  if t = .ch '\'' then [.ch '\'', .ch '\\', .ch '\'', .ch '\''] else [t]

theorem replaceQuotes_append (a b : Str) : replaceQuotes (a ++ b) = replaceQuotes a ++ replaceQuotes b := by
  induction a with
  | nil => rfl
  | cons c a ih => rw [List.cons_append, replaceQuotes, replaceQuotes, ih, List.append_assoc]

theorem replaceQuotes_none (a : Str) (h : '\'' ∉ a) : replaceQuotes a = a := by
  induction a with
  | nil => rfl
  | cons c a ih =>
    rw [replaceQuotes, if_neg (fun hh => h (by simp [hh])), ih (fun hh => h (by simp [hh]))]; rfl

theorem quoteToks_cons (t : Tok) (l : List Tok) :
    quoteToks (t :: l) = (if t = .ch '\'' then [.ch '\'', .ch '\\', .ch '\'', .ch '\''] else [t]) ++ quoteToks l := by
  simp [quoteToks]

theorem quoteToks_render (l : List Tok) : render (quoteToks l) = replaceQuotes (render l) := by
  induction l with
  | nil => rfl
  | cons t l ih =>
    rw [quoteToks_cons, render_append, ih, render_cons, replaceQuotes_append]
    congr 1
    cases t with
    | ch c =>
      by_cases hc : c = '\''
      · subst hc; rfl
      · rw [if_neg (by simpa using hc)]
        simp [render, Tok.text, replaceQuotes, hc]
    | var v =>
      rw [if_neg (by simp), show Tok.text (.var v) = v.ref from rfl, replaceQuotes_none _ (ref_quote v)]
      simp [render, Tok.text]

theorem quoteToks_value (d : Var → Str) (hd : ∀ v, '\'' ∉ d v) (l : List Tok) :
    value d (quoteToks l) = replaceQuotes (value d l) := by
  induction l with
  | nil => rfl
  | cons t l ih =>
    rw [quoteToks_cons, value_append, ih, value_cons, replaceQuotes_append]
    congr 1
    cases t with
    | ch c =>
      by_cases hc : c = '\''
      · subst hc; rfl
      · rw [if_neg (by simpa using hc)]
        simp [value, replaceQuotes, hc]
    | var v =>
      rw [if_neg (by simp)]
      show value d [.var v] = replaceQuotes (d v)
      rw [replaceQuotes_none _ (hd v)]
      simp [value]

theorem prefix_quoteToks (w : Str) (h1 : '$' ∉ w) (h2 : '\'' ∉ w) (l : List Tok)
    (h : w <+: render (quoteToks l)) : w <+: render l := by
  induction w generalizing l with
  | nil => exact List.nil_prefix
  | cons c w ih =>
    have hc1 : c ≠ '$' := fun hh => h1 (by simp [hh])
    have hc2 : c ≠ '\'' := fun hh => h2 (by simp [hh])
    cases l with
    | nil => exact h
    | cons t l =>
      rw [quoteToks_cons, render_append] at h
      cases t with
      | ch e =>
        split at h
        · exact absurd (List.cons_prefix_cons.mp h).1 hc2
        · rw [render_cons]
          have h' : c :: w <+: e :: render (quoteToks l) := by simpa [render, Tok.text] using h
          rw [List.cons_prefix_cons] at h'
          show c :: w <+: e :: render l
          rw [List.cons_prefix_cons]
          exact ⟨h'.1, ih (fun hh => h1 (by simp [hh])) (fun hh => h2 (by simp [hh])) l h'.2⟩
      | var v =>
        rw [if_neg (by simp)] at h
        have h' : c :: w <+: '$' :: (v.tail ++ render (quoteToks l)) := by simpa [render, Tok.text, Var.ref] using h
        exact absurd (List.cons_prefix_cons.mp h').1 hc1

theorem tail_quote (v : Var) : '\'' ∉ v.tail := by cases v <;> decide

theorem quoteToks_canon (l : List Tok) (h : Canon l) : Canon (quoteToks l) := by
  induction l with
  | nil => trivial
  | cons t l ih =>
    rw [quoteToks_cons]
    cases t with
    | ch c =>
      by_cases hc : c = '\''
      · subst hc
        exact canon_dollarless ['\'', '\\', '\'', '\''] (by decide) _ (ih h.2)
      · rw [if_neg (by simpa using hc)]
        exact ⟨fun he v hv => h.1 he v (prefix_quoteToks _ (tail_dollar v) (tail_quote v) _ hv), ih h.2⟩
    | var v => rw [if_neg (by simp)]; exact ih h

theorem quoteToks_mem (l : List Tok) (v : Var) : Tok.var v ∈ quoteToks l ↔ Tok.var v ∈ l := by
  simp only [quoteToks, List.mem_flatMap]
  constructor
  · rintro ⟨t, ht, hm⟩
    split at hm
    · simp at hm
    · rw [List.mem_singleton.mp hm]; exact ht
  · intro h; exact ⟨_, h, by simp⟩

theorem quoteToks_ch (l : List Tok) : Tok.ch '\n' ∈ quoteToks l ↔ Tok.ch '\n' ∈ l := by
  simp only [quoteToks, List.mem_flatMap]
  constructor
  · rintro ⟨t, ht, hm⟩
    split at hm
    · exact absurd hm (by decide)
    · rw [List.mem_singleton.mp hm]; exact ht
  · intro h; exact ⟨_, h, by simp⟩

theorem doubled_none_of (l : List Tok) (h : '$' ∉ render l) : render l = doubled (fun _ => true) l := by
  induction l with
  | nil => rfl
  | cons t l ih =>
    rw [render_cons] at h ⊢
    rw [doubled_cons, ih (fun hh => h (by simp [hh]))]
    congr 1
    cases t with
    | ch c => rw [Tok.text, Tok.doubled, if_neg (fun hh => h (by simp [Tok.text, hh]))]
    | var v => rfl

theorem canon_end (l : List Tok) (h : Canon l) : Canon (l ++ [.ch '\'']) := by
  induction l with
  | nil => exact ⟨fun h => absurd h (by decide), trivial⟩
  | cons t l ih =>
    cases t with
    | ch c =>
      refine ⟨fun hc v hv => h.1 hc v ?_, ih h.2⟩
      have hv : v.tail <+: render (l ++ [.ch '\'']) := hv
      rw [render_append, show render [.ch '\''] = ['\''] from rfl, List.prefix_concat_iff] at hv
      rcases hv with h | h
      · exact absurd (by rw [h]; simp) (tail_quote v)
      · exact h
    | var v => exact ih h

theorem render_nil (l : List Tok) (h : render l = []) : l = [] := by
  cases l with
  | nil => rfl
  | cons t l =>
    rw [render_cons] at h
    cases t <;> simp [Tok.text, Var.ref] at h

open Verif.Shell.Spec in
theorem posix_quote (w : Option Str) (s : Str) : posix w ('\'' :: s) = posixSingle (w.getD []) s := by
  cases w <;> rfl

open Verif.Shell.Spec in
/-- What make and then the shell make of a quoted text. -/
theorem quote_word (vars : List (Str × Str)) (d : Var → Str) (hd : ∀ v, '\'' ∉ d v) (l : List Tok)
    (hl : Canon l) (hk : Known vars d l) (hn : Tok.ch '\n' ∉ l) :
    ∃ x, (∀ rest, expandAt vars .text (quote (render l) ++ rest) = (expandAt vars .text rest).map (x ++ ·)) ∧
      (∀ w rest, posix w (x ++ rest) = posix (some (w.getD [] ++ value d l)) rest) ∧
      ((quote (render l)).head? = some '\'' ∨ (quote (render l) = value d l ∧ value d l ≠ [])) := by
  by_cases h0 : render l = []
  · have := render_nil l h0
    subst this
    have e : quote (render []) = ['\'', '\''] := by decide
    refine ⟨['\'', '\''], fun rest => ?_, fun w rest => ?_, .inl (by rw [e]; rfl)⟩
    · rw [e]; exact expand_plain vars _ _ (by decide) (by decide)
    · show posix w ('\'' :: '\'' :: rest) = _
      rw [posix_quote, posixSingle, if_pos rfl, show value d [] = [] from rfl, List.append_nil]
  · by_cases hs : hasSpecialChars iqmUnix (render l) = true
    · let m := .ch '\'' :: (quoteToks l ++ [.ch '\''])
      have hm : Canon m := ⟨fun h => absurd h (by decide), canon_end _ (quoteToks_canon l hl)⟩
      have hr : shellQuoteUnix (render l) = render m := by
        rw [shellQuoteUnix, if_neg h0, if_pos hs]
        show _ = render (.ch '\'' :: (quoteToks l ++ [.ch '\'']))
        rw [render_cons, render_append, quoteToks_render]
        rfl
      have hq : quote (render l) = doubled (fun _ => true) m := by
        rw [← unquoted m hm, ← hr]; rfl
      have hkm : Known vars d m := by
        intro v hv
        refine hk v ((quoteToks_mem l v).mp ?_)
        rcases List.mem_cons.mp hv with h | h
        · exact absurd h (by simp)
        · rcases List.mem_append.mp h with h | h
          · exact h
          · simp at h
      have hnm : Tok.ch '\n' ∉ m := by
        intro h
        rcases List.mem_cons.mp h with h | h
        · exact absurd h (by decide)
        · rcases List.mem_append.mp h with h | h
          · exact hn ((quoteToks_ch l).mp h)
          · exact absurd h (by decide)
      refine ⟨value d m, fun rest => by rw [hq, expand_doubled vars d m rest hkm hnm], fun w rest => ?_, .inl ?_⟩
      case refine_2 =>
        rw [hq]
        show (doubled _ (.ch '\'' :: _)).head? = _
        rw [doubled_cons]; rfl
      have hv : value d m = '\'' :: (replaceQuotes (value d l) ++ ['\'']) := by
        show value d (.ch '\'' :: (quoteToks l ++ [.ch '\''])) = _
        rw [value_cons, value_append, quoteToks_value d hd]
        rfl
      rw [hv, List.cons_append, posix_quote, List.append_assoc, List.singleton_append,
        Verif.Shell.posixSingle_quotes]
    · replace hs : hasSpecialChars iqmUnix (render l) = false := by simpa using hs
      have hr : shellQuoteUnix (render l) = render l := by
        rw [shellQuoteUnix, if_neg h0, if_neg (by rw [hs]; decide)]
      have hq : quote (render l) = doubled (fun _ => true) l := by
        rw [← unquoted l hl, ← hr]
        conv => lhs; rw [hr]
        rfl
      have hv : value d l = render l := by
        have hall : ∀ v, Tok.var v ∉ l := by
          intro v hv
          have hmem : '$' ∈ render l := by
            simp only [render, List.mem_flatMap]
            exact ⟨_, hv, by simp [Tok.text, Var.ref]⟩
          have := Verif.Shell.not_special_mem hs '$' hmem
          exact absurd this (by decide)
        clear hq hr hs h0 hk hl hn
        induction l with
        | nil => rfl
        | cons t l ih =>
          rw [value_cons, render_cons, ih fun v hv => hall v (by simp [hv])]
          cases t with
          | ch c => rfl
          | var v => exact absurd (by simp) (hall v)
      have hdl : doubled (fun _ => true) l = render l := by
        have hall : '$' ∉ render l := by
          intro hm
          exact absurd (Verif.Shell.not_special_mem hs '$' hm) (by decide)
        rw [← doubled_none_of l hall]
      refine ⟨value d l, fun rest => by rw [hq, expand_doubled vars d l rest hk hn], fun w rest => ?_,
        .inr ⟨by rw [hq, hdl, hv], by rw [hv]; exact h0⟩⟩
      rw [hv]
      have hp : ∀ c ∈ render l, isSpecialChar iqmUnix c = false := fun c => Verif.Shell.not_special_mem hs c
      cases w with
      | none => exact Verif.Shell.posix_plain_start _ _ hp h0
      | some w => exact Verif.Shell.posix_plain _ _ hp w

end Verif.Makefile
