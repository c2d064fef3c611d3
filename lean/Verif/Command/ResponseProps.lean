import Verif.Command.FinderProps
import Verif.Shell.Props
/-! # C77: response files -/

namespace Verif.Command
open Verif.Shell (Os Str shellQuote shellQuoteUnix shellQuoteCommand replaceQuotes isSpecialChar iqmUnix not_special_mem
  special_of_mem)
open Spec (gnu gnuOptions isBlank expand Complete)

/-- Everything that is special to the reader is quoted. -/
theorem gnu_table (c : Char) (h : isBlank c = true ∨ c = '\\' ∨ c = '\'' ∨ c = '"') : isSpecialChar iqmUnix c = true := by
  apply special_of_mem iqmUnix ['\\', '\'', '"', ' ', '\t', '\n', '\r', '\x0b', '\x0c'] (by decide)
  rcases h with h | h
  · simp only [isBlank, Bool.or_eq_true, beq_iff_eq] at h
    rcases h with ((((h | h) | h) | h) | h) | h <;> simp [h]
  · rcases h with h | h | h <;> simp [h]

theorem gnu_plain (a rest : Str) (h : ∀ c ∈ a, isSpecialChar iqmUnix c = false) (hne : a ≠ []) (w : Option Str) :
    gnu none false w (a ++ rest) = gnu none false (some (w.getD [] ++ a)) rest := by
  induction a generalizing w with
  | nil => exact absurd rfl hne
  | cons c cs ih =>
    have hc := h c (by simp)
    have hn : ¬(isBlank c = true ∨ c = '\\' ∨ c = '\'' ∨ c = '"') := by
      intro hd; rw [gnu_table c hd] at hc; exact absurd hc (by decide)
    rw [List.cons_append, gnu]
    rw [if_neg (by decide), if_neg (fun e => hn (.inr (.inl e)))]
    rw [if_neg (fun e => hn (.inr (.inr e))), if_neg (fun e => hn (.inl e))]
    by_cases hcs : cs = []
    · subst hcs; rfl
    · rw [ih (fun d hd => h d (by simp [hd])) hcs]
      simp

theorem gnu_single (a rest : Str) (h : '\\' ∉ a) (w : Str) :
    gnu (some '\'') false (some w) (replaceQuotes a ++ '\'' :: rest) = gnu none false (some (w ++ a)) rest := by
  induction a generalizing w with
  | nil => simp [replaceQuotes, gnu]
  | cons c cs ih =>
    simp only [List.mem_cons, not_or] at h
    rw [replaceQuotes]
    split
    · rename_i hc
      subst hc
      simp only [List.cons_append, List.nil_append]
      rw [gnu, if_neg (by decide), if_neg (by decide)]
      simp only [if_true]
      rw [gnu, if_neg (by decide), if_pos rfl, gnu, if_pos rfl, gnu, if_neg (by decide), if_neg (by decide)]
      simp only [Option.getD_some]
      rw [if_pos (.inl trivial), ih h.2]
      simp
    · rename_i hc
      simp only [List.cons_append, List.nil_append]
      rw [gnu, if_neg (by decide), if_neg (Ne.symm h.1)]
      simp only [Option.getD_some]
      rw [if_neg hc, ih h.2]
      simp

theorem gnu_quoted (a rest : Str) (h : '\\' ∉ a) :
    gnu none false none (shellQuoteUnix a ++ rest) = gnu none false (some a) rest := by
  unfold shellQuoteUnix
  split
  · rename_i h; subst h
    simp [gnu]
  · rename_i hne
    split
    · simp only [List.cons_append, List.nil_append, List.append_assoc]
      rw [gnu, if_neg (by decide), if_neg (by decide)]
      simp only [Option.getD_none]
      rw [if_pos (.inl trivial), gnu_single a rest h]
      rfl
    · rename_i hs
      rw [gnu_plain a rest (not_special_mem (by simpa using hs)) hne]
      rfl

theorem gnu_blank (b : Char) (hb : isBlank b = true) (w : Option Str) (rest : Str) :
    gnu none false w (b :: rest) = w.toList ++ gnu none false none rest := by
  have h1 : b ≠ '\\' := by rintro rfl; exact absurd hb (by decide)
  have h2 : ¬(b = '\'' ∨ b = '"') := by rintro (rfl | rfl) <;> exact absurd hb (by decide)
  rw [gnu, if_neg (by decide), if_neg h1]
  rw [if_neg h2, if_pos hb]

theorem gnu_blanks (s rest : Str) (h : ∀ b ∈ s, isBlank b = true) : gnu none false none (s ++ rest) = gnu none false none rest := by
  induction s with
  | nil => rfl
  | cons b bs ih =>
    rw [List.cons_append, gnu_blank b (h b (by simp)), ih (fun c hc => h c (by simp [hc]))]
    rfl

/-- The options read from an argument with the separator after it. -/
theorem gnu_argument (a sep rest : Str) (h : '\\' ∉ a) (hne : sep ≠ []) (hb : ∀ b ∈ sep, isBlank b = true) :
    gnuOptions (shellQuote .unix a ++ sep ++ rest) = a :: gnuOptions rest := by
  unfold gnuOptions
  rw [List.append_assoc, show shellQuote .unix a = shellQuoteUnix a from rfl, gnu_quoted _ _ h]
  cases sep with
  | nil => exact absurd rfl hne
  | cons b bs =>
    rw [List.cons_append, gnu_blank b (hb b (by simp)), gnu_blanks bs rest (fun c hc => hb c (by simp [hc]))]
    rfl

theorem gnu_inlined (content sep rest : Str) (h : Complete content) (hne : sep ≠ []) (hb : ∀ b ∈ sep, isBlank b = true) :
    gnuOptions (content ++ sep ++ rest) = gnuOptions content ++ gnuOptions rest := by
  cases sep with
  | nil => exact absurd rfl hne
  | cons b bs =>
    rw [List.append_assoc, List.cons_append, h b _ (hb b (by simp))]
    unfold gnuOptions
    rw [gnu_blanks bs rest (fun c hc => hb c (by simp [hc]))]

theorem writeArgs_written (files : Str → Option Str) (pre sep w : Str) (args : List Str) :
    writeArgs files pre sep w args = (writeArgs files pre sep [] args).map (w ++ ·) := by
  induction args generalizing w with
  | nil => simp [writeArgs, Except.map]
  | cons a as ih =>
    unfold writeArgs
    split
    · split
      · rfl
      · rw [ih, ih ([] ++ _ ++ _)]
        cases writeArgs files pre sep [] as <;> simp [Except.map]
    · rw [ih, ih ([] ++ _ ++ _)]
      cases writeArgs files pre sep [] as <;> simp [Except.map]

theorem writeArgs_options (files : Str → Option Str) (pre sep : Str) (hne : sep ≠ []) (hb : ∀ b ∈ sep, isBlank b = true)
    (args : List Str)
    (hplain : ∀ a ∈ args, pre.isPrefixOf a = false → '\\' ∉ a)
    (hfiles : ∀ a ∈ args, pre.isPrefixOf a = true → ∀ content, files (a.drop pre.length) = some content → Complete content) :
    (∃ content, writeArgs files pre sep [] args = .ok content ∧ gnuOptions content = expand files pre args) ∨
    (∃ a ∈ args, pre.isPrefixOf a = true ∧ files (a.drop pre.length) = none ∧
      writeArgs files pre sep [] args = .error (a.drop pre.length)) := by
  induction args with
  | nil => exact .inl ⟨[], rfl, rfl⟩
  | cons a as ih =>
    have ih := ih (fun x hx => hplain x (by simp [hx])) (fun x hx => hfiles x (by simp [hx]))
    unfold writeArgs
    have hexp : expand files pre (a :: as) = (if pre.isPrefixOf a then
        match files (a.drop pre.length) with
        | some content => gnuOptions content
        | none => [a]
      else [a]) ++ expand files pre as := rfl
    by_cases hp : pre.isPrefixOf a = true
    · rw [if_pos hp]
      cases hf : files (a.drop pre.length) with
      | none => exact .inr ⟨a, by simp, hp, hf, rfl⟩
      | some content =>
        simp only
        rw [writeArgs_written]
        rcases ih with ⟨c, h1, h2⟩ | ⟨x, h1, h2, h3, h4⟩
        · refine .inl ⟨content ++ sep ++ c, by rw [h1]; rfl, ?_⟩
          rw [gnu_inlined content sep c (hfiles a (by simp) hp content hf) hne hb, h2, hexp, if_pos hp, hf]
        · exact .inr ⟨x, by simp [h1], h2, h3, by rw [h4]; rfl⟩
    · rw [if_neg hp, writeArgs_written]
      rcases ih with ⟨c, h1, h2⟩ | ⟨x, h1, h2, h3, h4⟩
      · refine .inl ⟨shellQuote .unix a ++ sep ++ c, by rw [h1]; rfl, ?_⟩
        rw [gnu_argument a sep c (hplain a (by simp) (Bool.eq_false_iff.mpr hp)) hne hb, h2, hexp, if_neg hp]
        rfl
      · exact .inr ⟨x, by simp [h1], h2, h3, by rw [h4]; rfl⟩

theorem expand_append (files : Str → Option Str) (pre : Str) (a b : List Str) :
    expand files pre (a ++ b) = expand files pre a ++ expand files pre b := by
  unfold expand; rw [List.flatMap_append]

theorem expand_congr {files files' : Str → Option Str} (pre : Str) (args : List Str)
    (h : ∀ a ∈ args, pre.isPrefixOf a = true → files (a.drop pre.length) = files' (a.drop pre.length)) :
    expand files pre args = expand files' pre args := by
  unfold expand
  induction args with
  | nil => rfl
  | cons a as ih =>
    rw [List.flatMap_cons, List.flatMap_cons, ih (fun x hx => h x (by simp [hx]))]
    congr 1
    by_cases hp : pre.isPrefixOf a = true
    · rw [if_pos hp, if_pos hp, h a (by simp) hp]
    · rw [if_neg hp, if_neg hp]

/-- **C77.** A response file is used exactly if the command says how to name one and its command line is longer than the
threshold, which must not be negative; otherwise the program gets the arguments as they are. -/
theorem C77_when_used (files : Str → Option Str) (tempName program : Str) (c : Command) :
    startArguments files tempName program c = .direct c.arguments ↔
      c.responseFileUsagePrefix = [] ∨ c.responseFileThreshold < 0 ∨
        (shellQuoteCommand .unix program c.arguments).length ≤ c.responseFileThreshold := by
  unfold startArguments
  simp only
  by_cases h : c.responseFileUsagePrefix ≠ [] ∧ 0 ≤ c.responseFileThreshold ∧
      c.responseFileThreshold < ((shellQuoteCommand .unix program c.arguments).length : Int)
  · rw [if_pos h]
    constructor
    · intro he
      split at he
      · exact absurd he (by simp)
      · split at he <;> exact absurd he (by simp)
    · rintro (e | e | e)
      · exact absurd e h.1
      · omega
      · omega
  · rw [if_neg h]
    constructor
    · intro _
      by_cases h1 : c.responseFileUsagePrefix = []
      · exact .inl h1
      · by_cases h2 : c.responseFileThreshold < 0
        · exact .inr (.inl h2)
        · refine .inr (.inr ?_)
          have : ¬(c.responseFileThreshold < ((shellQuoteCommand .unix program c.arguments).length : Int)) :=
            fun h3 => h ⟨h1, by omega, h3⟩
          omega
    · intro _; rfl

/-- **C77 (partial).** A program that reads response files like GCC gets the same arguments with and without a response file,
wherever the response file starts and however the arguments are quoted, if the separator is white space, the arguments do not
contain backslashes, and the arguments that look like response files are existing and complete ones; files named by other
arguments are unaffected. Missing: see the findings below. -/
theorem C77_same_arguments_partial (files : Str → Option Str) (tempName program : Str) (c : Command)
    (hindex : 0 ≤ c.responseFileArgumentIndex)
    (hsep : c.responseFileSeparator ≠ [] ∧ ∀ b ∈ c.responseFileSeparator, isBlank b = true)
    (hplain : ∀ a ∈ c.arguments, c.responseFileUsagePrefix.isPrefixOf a = false → '\\' ∉ a)
    (hfiles : ∀ a ∈ c.arguments, c.responseFileUsagePrefix.isPrefixOf a = true →
      ∃ content, files (a.drop c.responseFileUsagePrefix.length) = some content ∧ Complete content)
    (hnew : ∀ a ∈ c.arguments, a ≠ c.responseFileUsagePrefix ++ tempName) :
    startArguments files tempName program c = .direct c.arguments ∨
    ∃ args content, startArguments files tempName program c = .viaFile args content ∧
      expand (fun f => if f = tempName then some content else files f) c.responseFileUsagePrefix args =
        expand files c.responseFileUsagePrefix c.arguments := by
  unfold startArguments
  simp only
  by_cases h : c.responseFileUsagePrefix ≠ [] ∧ 0 ≤ c.responseFileThreshold ∧
      c.responseFileThreshold < ((shellQuoteCommand .unix program c.arguments).length : Int)
  · rw [if_pos h, if_neg (by omega)]
    right
    generalize hi : c.responseFileArgumentIndex.toNat = index
    have hdrop : ∀ a ∈ c.arguments.drop index, a ∈ c.arguments := fun a ha => List.mem_of_mem_drop ha
    rcases writeArgs_options files c.responseFileUsagePrefix c.responseFileSeparator hsep.1 hsep.2 (c.arguments.drop index)
      (fun a ha => hplain a (hdrop a ha))
      (fun a ha hp content hc => by
        obtain ⟨content', h1, h2⟩ := hfiles a (hdrop a ha) hp
        rw [h1] at hc; exact (Option.some.inj hc) ▸ h2) with ⟨content, h1, h2⟩ | ⟨a, h1, h2, h3, _⟩
    · rw [h1]
      refine ⟨_, content, rfl, ?_⟩
      rw [expand_append]
      have e1 : expand (fun f => if f = tempName then some content else files f) c.responseFileUsagePrefix
          [c.responseFileUsagePrefix ++ tempName] = gnuOptions content := by
        simp [expand, List.isPrefixOf_iff_prefix]
      have e2 : expand (fun f => if f = tempName then some content else files f) c.responseFileUsagePrefix
          (c.arguments.take (min index c.arguments.length)) =
          expand files c.responseFileUsagePrefix (c.arguments.take (min index c.arguments.length)) := by
        refine expand_congr _ _ ?_
        intro a ha hp
        rw [if_neg]
        intro e
        obtain ⟨t, ht⟩ := List.isPrefixOf_iff_prefix.mp hp
        rw [← ht, List.drop_left] at e
        exact hnew a (List.mem_of_mem_take ha) (by rw [← ht, e])
      rw [e1, e2, h2, ← expand_append]
      congr 1
      rw [show c.arguments.take (min index c.arguments.length) = c.arguments.take index by
        rw [← List.take_take, List.take_length]]
      exact List.take_append_drop index c.arguments
    · obtain ⟨content, h5, _⟩ := hfiles a (hdrop a h1) h2
      rw [h3] at h5; exact absurd h5 (by simp)
  · rw [if_neg h]; exact .inl rfl

/-! ### Findings -/

/-- A command with the prefix of GCC, and the response file used for every command line. -/
def sample (args : List Str) : Command :=
  { program := "/cc".toList, arguments := args, responseFileUsagePrefix := ['@'], responseFileThreshold := 0 }

/-- **C77 finding.** Backslashes get lost if GCC reads the response file: the argument `-DX=\"a b\"` arrives as `-DX="a b"`. -/
theorem C77_backslash_lost :
    ∃ content, startArguments (fun _ => none) "/r".toList "/cc".toList (sample ["-DX=\\\"a b\\\"".toList]) =
        .viaFile ["@/r".toList] content ∧
      gnuOptions content = ["-DX=\"a b\"".toList] :=
  ⟨"'-DX=\\\"a b\\\"'\n".toList, by decide +kernel, by decide +kernel⟩

/-- **C77 finding.** An argument that starts with the prefix of response files without being one makes the command fail as soon
as the command line is long, although the program would take it literally. -/
theorem C77_not_a_file :
    startArguments (fun _ => none) "/r".toList "/cc".toList (sample ["-install_name".toList, "@rpath/a".toList]) =
      .cannotOpen "rpath/a".toList ∧
    expand (fun _ => none) ['@'] ["-install_name".toList, "@rpath/a".toList] = ["-install_name".toList, "@rpath/a".toList] := by
  decide +kernel

/-- **C77 finding.** The separator is used as it is: with one that is not white space, the arguments are glued together. -/
theorem C77_separator :
    ∃ content, startArguments (fun _ => none) "/r".toList "/cc".toList
        { sample ["-a".toList, "-b".toList] with responseFileSeparator := [] } = .viaFile ["@/r".toList] content ∧
      gnuOptions content = ["-a-b".toList] :=
  ⟨"-a-b".toList, by decide +kernel, by decide +kernel⟩

/-- **C77 finding.** A negative index of the first argument in the response file is not rejected: the list of arguments is read
outside its bounds. -/
theorem C77_negative_index (files : Str → Option Str) (tempName program : Str) (c : Command)
    (hp : c.responseFileUsagePrefix ≠ []) (ht : 0 ≤ c.responseFileThreshold)
    (hl : c.responseFileThreshold < (shellQuoteCommand .unix program c.arguments).length)
    (hi : c.responseFileArgumentIndex < 0) : startArguments files tempName program c = .undefined := by
  unfold startArguments
  simp only
  rw [if_pos ⟨hp, ht, hl⟩, if_pos hi]

end Verif.Command
