import Verif.Shell.Model
import Verif.Shell.Spec

/-
C07: Unix quoting, C08: Windows quoting.
-/

namespace Verif.Shell

open Spec

/-! ### Characters and tables -/

theorem special_of_mem (iqm : List Nat) (l : Str)
    (h : (l.all fun c => isSpecialChar iqm c) = true) (c : Char) (hc : c ∈ l) :
    isSpecialChar iqm c = true := List.all_eq_true.mp h c hc

theorem not_special_mem {iqm : List Nat} {a : Str} (h : hasSpecialChars iqm a = false) (c : Char)
    (hc : c ∈ a) : isSpecialChar iqm c = false := by
  simp only [hasSpecialChars, List.any_reverse, List.any_eq_false] at h
  simpa using h c hc

/-! ### C07 -/

/-- Everything that is special to the shell is in the table. -/
theorem unix_table (c : Char)
    (h : c = ' ' ∨ c = '\t' ∨ c = '\\' ∨ c = '\'' ∨ c ∈ posixSpecial) :
    isSpecialChar iqmUnix c = true := by
  apply special_of_mem iqmUnix (' ' :: '\t' :: '\\' :: '\'' :: posixSpecial) (by decide)
  simpa using h

theorem posix_plain (a rest : Str) (h : ∀ c ∈ a, isSpecialChar iqmUnix c = false) (w : Str) :
    posix (some w) (a ++ rest) = posix (some (w ++ a)) rest := by
  induction a generalizing w with
  | nil => simp
  | cons c cs ih =>
    have hc := h c (by simp)
    have hn : ∀ d, (d = ' ' ∨ d = '\t' ∨ d = '\\' ∨ d = '\'' ∨ d ∈ posixSpecial) → c ≠ d := by
      intro d hd he
      rw [he, unix_table d hd] at hc; simp at hc
    rw [List.cons_append]
    have := ih (fun d hd => h d (by simp [hd])) (w ++ [c])
    rw [posix.eq_4]
    · rw [if_neg, if_neg]
      · simp only [addChar, Option.getD_some]
        rw [this]; simp
      · intro hm; exact hn c (by simp [hm]) rfl
      · rintro (rfl | rfl)
        · exact hn ' ' (by simp) rfl
        · exact hn '\t' (by simp) rfl
    · rintro rfl; exact hn '\\' (by simp) rfl
    · rintro rfl; exact hn '\'' (by simp) rfl

theorem posix_plain_start (a rest : Str) (h : ∀ c ∈ a, isSpecialChar iqmUnix c = false)
    (hne : a ≠ []) : posix none (a ++ rest) = posix (some a) rest := by
  cases a with
  | nil => exact absurd rfl hne
  | cons c cs =>
    have := posix_plain (c :: cs) rest h []
    rw [List.nil_append] at this
    rw [← this]
    have hc := h c (by simp)
    have hn : ∀ d, (d = ' ' ∨ d = '\t' ∨ d = '\\' ∨ d = '\'' ∨ d ∈ posixSpecial) → c ≠ d := by
      intro d hd he
      rw [he, unix_table d hd] at hc; simp at hc
    rw [List.cons_append, posix.eq_4, posix.eq_4]
    · rw [if_neg, if_neg, if_neg, if_neg]
      · rfl
      · intro hm; exact hn c (by simp [hm]) rfl
      · rintro (rfl | rfl)
        · exact hn ' ' (by simp) rfl
        · exact hn '\t' (by simp) rfl
      · intro hm; exact hn c (by simp [hm]) rfl
      · rintro (rfl | rfl)
        · exact hn ' ' (by simp) rfl
        · exact hn '\t' (by simp) rfl
    · rintro rfl; exact hn '\\' (by simp) rfl
    · rintro rfl; exact hn '\'' (by simp) rfl
    · rintro rfl; exact hn '\\' (by simp) rfl
    · rintro rfl; exact hn '\'' (by simp) rfl

theorem posixSingle_quotes (a rest : Str) (w : Str) :
    posixSingle w (replaceQuotes a ++ '\'' :: rest) = posix (some (w ++ a)) rest := by
  induction a generalizing w with
  | nil => simp [replaceQuotes, posixSingle]
  | cons c cs ih =>
    rw [replaceQuotes]
    split
    · rename_i hc
      subst hc
      simp only [List.cons_append, List.nil_append]
      rw [posixSingle, if_pos rfl, posix, posixEsc, if_neg (by decide), posix]
      simp only [addChar, Option.getD_some]
      rw [ih]; simp
    · rename_i hc
      simp only [List.cons_append, List.nil_append]
      rw [posixSingle, if_neg hc, ih]; simp

theorem posix_quoted (a rest : Str) :
    posix none (shellQuoteUnix a ++ rest) = posix (some a) rest := by
  unfold shellQuoteUnix
  split
  · rename_i h; subst h
    simp [posix, posixSingle]
  · rename_i hne
    split
    · simp only [List.cons_append, List.nil_append, List.append_assoc]
      rw [posix]
      simp only [Option.getD_none]
      rw [posixSingle_quotes]
      rfl
    · rename_i h
      exact posix_plain_start a rest (not_special_mem (by simpa using h)) hne

theorem posix_blank (a rest : Str) :
    posix (some a) (' ' :: rest) = (posix none rest).map (a :: ·) := by
  rw [posix.eq_4]
  · rw [if_pos (.inl rfl)]; rfl
  · intro h; exact absurd h (by decide)
  · intro h; exact absurd h (by decide)

/-- C07: a POSIX shell splits the quoted argument list into exactly the given arguments; nothing is
    split, merged, expanded or altered. -/
theorem C07_unix_round_trip (args : List Str) :
    posixWords (shellQuoteList .unix args) = some args := by
  unfold posixWords
  cases args with
  | nil => rfl
  | cons a as =>
    rw [shellQuoteList, show shellQuote .unix a = shellQuoteUnix a from rfl, posix_quoted]
    induction as generalizing a with
    | nil => simp [posix]
    | cons b bs ih =>
      simp only [List.map_cons, List.flatten_cons, List.cons_append]
      rw [posix_blank, show shellQuote .unix b = shellQuoteUnix b from rfl, posix_quoted, ih]
      rfl

/-- The same for a program with arguments. -/
theorem C07_unix_command (program : Str) (args : List Str) :
    posixWords (shellQuoteCommand .unix program args) = some (program :: args) := by
  have h : shellQuoteCommand .unix program args = shellQuoteList .unix (program :: args) := by
    unfold shellQuoteCommand
    cases args with
    | nil => rfl
    | cons a as =>
      rw [if_neg (by simp)]
      simp [shellQuoteList]
  rw [h, C07_unix_round_trip]

/-- The same for command lines put together with `CommandLine`, if nothing was added as raw text. -/
theorem C07_unix_command_line (program : Str) (args : List Argument)
    (h : ∀ a ∈ args, a.shouldQuote = true) :
    posixWords (toCommandLine .unix program false args) =
      some (program :: args.map Argument.value) := by
  have e : toCommandLine .unix program false args =
      shellQuoteList .unix (program :: args.map Argument.value) := by
    simp only [toCommandLine, toNativeSeparators, shellQuoteList, List.map_map, Bool.false_eq_true,
      if_false, ite_self]
    congr 2
    apply List.map_congr_left
    intro a ha
    simp [h a ha]
  rw [e, C07_unix_round_trip]

/-- A word in command position can be an assignment; an equals sign is not quoted. -/
theorem C07_assignment_not_quoted :
    isAssignment (shellQuoteCommand .unix "A=b".toList []) = true := by decide

/-- Concrete, non-trivial arguments. -/
example : shellQuoteList .unix ["it's".toList, "".toList, "a b".toList, "x;y".toList, "plain".toList] =
    "'it'\\''s' '' 'a b' 'x;y' plain".toList := by decide

/-! ### C08 -/

/-- Arguments cmd.exe can take at all: no line breaks, no percent signs, no NUL. -/
def CmdOk (a : Str) : Prop := ∀ c ∈ a, ¬ (c = '\n' ∨ c = '\r' ∨ c = '%' ∨ c = '\x00')

instance (a : Str) : Decidable (CmdOk a) := by unfold CmdOk; infer_instance

/-- The text between the outer quotes that is meant to reach the called program. -/
def inner (a : Str) : Str := doubleTrailing (escapeQuotes 0 a)

theorem win_table (c : Char)
    (h : c = ' ' ∨ c = '\t' ∨ c = '"' ∨ c = '^' ∨ c ∈ cmdSpecial) :
    isSpecialChar iqmWin c = true := by
  apply special_of_mem iqmWin (' ' :: '\t' :: '"' :: '^' :: cmdSpecial) (by decide)
  simpa using h

theorem meta_table (c : Char) (h : c = '^' ∨ c ∈ cmdSpecial) : isSpecialChar ismWin c = true := by
  apply special_of_mem ismWin ('^' :: cmdSpecial) (by decide)
  simpa using h

theorem mem_escapeQuotes (n : Nat) (a : Str) (c : Char) (h : c ∈ escapeQuotes n a) :
    c ∈ a ∨ c = '\\' := by
  induction a generalizing n with
  | nil => simp [escapeQuotes, bs] at h; exact .inr h.2
  | cons d ds ih =>
    rw [escapeQuotes] at h
    have hb : ∀ n, c ∈ bs n → c = '\\' := by intro n hn; simp [bs] at hn; exact hn.2
    split at h
    · rcases ih _ h with h | h
      · exact .inl (by simp [h])
      · exact .inr h
    · split at h
      · simp only [List.append_assoc, List.mem_append, List.mem_cons] at h
        rcases h with h | h | h | h | h
        · exact .inr (hb _ h)
        · exact .inr (hb _ h)
        · exact .inr h
        · rename_i _ hq; exact .inl (by simp [h, hq])
        · rcases ih _ h with h | h
          · exact .inl (by simp [h])
          · exact .inr h
      · simp only [List.mem_append, List.mem_cons] at h
        rcases h with h | h | h
        · exact .inr (hb _ h)
        · exact .inl (by simp [h])
        · rcases ih _ h with h | h
          · exact .inl (by simp [h])
          · exact .inr h

theorem doubleTrailing_eq {s : Str} (h : '\n' ∉ s) :
    doubleTrailing s = s ++ s.reverse.takeWhile (· == '\\') := by
  unfold doubleTrailing
  split
  · rename_i r hr
    exact absurd (List.mem_reverse.mp (by rw [hr]; simp)) h
  · rfl

theorem escapeQuotes_newline {a : Str} (h : '\n' ∉ a) : '\n' ∉ escapeQuotes 0 a := by
  intro hm
  rcases mem_escapeQuotes _ _ _ hm with hm | hm
  · exact h hm
  · exact absurd hm (by decide)

theorem CmdOk.newline {a : Str} (h : CmdOk a) : '\n' ∉ a := fun hm => h _ hm (.inl rfl)

theorem inner_ok {a : Str} (h : CmdOk a) : CmdOk (inner a) := by
  intro c hc
  have : c ∈ escapeQuotes 0 a := by
    rw [inner, doubleTrailing_eq (escapeQuotes_newline h.newline), List.mem_append] at hc
    rcases hc with hc | hc
    · exact hc
    · exact List.mem_reverse.mp ((List.takeWhile_sublist _).subset hc)
  rcases mem_escapeQuotes _ _ _ this with hm | hm
  · exact h c hm
  · subst hm; decide

/-- cmd.exe removes exactly the circumflexes that were inserted, and ends outside quotes. -/
theorem cmd_carets (s rest : Str) (h : CmdOk s) (q : Bool) :
    cmd q (insertCarets q s ++ ['"'] ++ rest) = (cmd false rest).map ((s ++ ['"']) ++ ·) := by
  induction s generalizing q with
  | nil =>
    cases q with
    | true => simp [insertCarets, cmd]
    | false => simp [insertCarets, cmd, cmdEsc]
  | cons c cs ih =>
    have hc := h c (by simp)
    have ih' := ih (fun d hd => h d (by simp [hd]))
    rw [insertCarets]
    split
    · rename_i hq; subst hq
      rw [List.cons_append, List.cons_append, cmd, if_neg hc, if_pos rfl, ih']
      simp [Option.map_map, Function.comp_def]
    · rename_i hq
      split
      · rename_i hs
        simp only [Bool.and_eq_true, Bool.not_eq_true'] at hs
        obtain ⟨hs1, _⟩ := hs
        subst hs1
        simp only [List.cons_append]
        rw [cmd, if_neg (by decide), if_neg (by decide), if_neg (by decide), if_pos rfl, cmdEsc,
          if_neg hc]
        rw [ih' false]
        simp [Option.map_map, Function.comp_def]
      · rename_i hs
        simp only [List.cons_append]
        rw [cmd, if_neg hc, if_neg hq]
        cases q with
        | true =>
          simp only [if_true]
          rw [ih']
          simp [Option.map_map, Function.comp_def]
        | false =>
          simp only [Bool.not_false, Bool.true_and] at hs
          have hn : ¬ (c = '^' ∨ c ∈ cmdSpecial) := fun h => hs (meta_table c h)
          simp only [not_or] at hn
          rw [if_neg (by decide), if_neg hn.1, if_neg hn.2, ih']
          simp [Option.map_map, Function.comp_def]

theorem cmd_plain (a rest : Str) (h : ∀ c ∈ a, isSpecialChar iqmWin c = false) (hok : CmdOk a) :
    cmd false (a ++ rest) = (cmd false rest).map (a ++ ·) := by
  induction a with
  | nil => simp
  | cons c cs ih =>
    have hc := h c (by simp)
    have hn : ∀ d, (d = ' ' ∨ d = '\t' ∨ d = '"' ∨ d = '^' ∨ d ∈ cmdSpecial) → c ≠ d := by
      intro d hd he
      rw [he, win_table d hd] at hc; simp at hc
    rw [List.cons_append, cmd, if_neg (hok c (by simp)), if_neg (hn '"' (by simp)),
      if_neg (by decide), if_neg (hn '^' (by simp)), if_neg (fun hm => hn c (by simp [hm]) rfl),
      ih (fun d hd => h d (by simp [hd])) (fun d hd => hok d (by simp [hd]))]
    simp [Option.map_map, Function.comp_def]

/-- What reaches the called program for one argument. -/
def delivered (a : Str) : Str :=
  if a = [] then ['"', '"']
  else if hasSpecialChars iqmWin a then ['"'] ++ (inner a ++ ['"']) else a

theorem cmd_quoted (a rest : Str) (h : CmdOk a) :
    cmd false (shellQuoteWin a ++ rest) = (cmd false rest).map (delivered a ++ ·) := by
  unfold shellQuoteWin delivered
  split
  · simp [cmd, Option.map_map, Function.comp_def]
  · split
    · simp only [List.cons_append, List.nil_append]
      rw [cmd, if_neg (by decide), if_pos rfl]
      have := cmd_carets (inner a) rest (inner_ok h) true
      simp only [Bool.not_false]
      rw [show insertCarets true (doubleTrailing (escapeQuotes 0 a)) = insertCarets true (inner a)
        from rfl, this]
      simp [Option.map_map, Function.comp_def]
    · rename_i hs
      exact cmd_plain a rest (not_special_mem (by simpa using hs)) h

/-! The C run-time. -/

theorem argv_backslashes (q : Mode) (hq : q ≠ .closed) (n k : Nat) (w : Option Str) (rest : Str) :
    argv q n w (bs k ++ rest) = argv q (n + k) w rest := by
  induction k generalizing n with
  | zero => simp [bs]
  | succ k ih =>
    rw [bs, List.replicate_succ, List.cons_append, argv, if_pos rfl]
    have : (if q = .inside then Mode.inside else .outside) = q := by
      cases q <;> simp_all
    rw [this, ← bs, ih]
    congr 1; omega

theorem takeWhile_stop {p : Char → Bool} (l r : Str) (d : Char) (h : p d = false) :
    (l ++ d :: r).takeWhile p = l.takeWhile p := by
  induction l with
  | nil => simp [h]
  | cons x l ih =>
    rw [List.cons_append, List.takeWhile_cons, List.takeWhile_cons, ih]

theorem addBack_getD (w : Str) (n : Nat) : (addBack (some w) n).getD [] = w ++ bs n := by
  unfold addBack
  split
  · rename_i h; subst h; simp [bs]
  · rfl

/-- Reading the escaped text inside quotes: all of it is literal, up to backslashes at the end. -/
theorem argv_escaped (a : Str) (n : Nat) (w : Str) :
    ∃ k w', w' ++ bs k = w ++ (bs n ++ a) ∧
      (∀ rest, argv .inside 0 (some w) (escapeQuotes n a ++ rest) =
        argv .inside k (some w') rest) ∧
      (escapeQuotes n a).reverse.takeWhile (· == '\\') = bs k := by
  induction a generalizing n w with
  | nil =>
    refine ⟨n, w, by simp, fun rest => ?_, ?_⟩
    · rw [escapeQuotes, argv_backslashes _ (by decide)]; simp
    · simp [escapeQuotes, bs]
  | cons c cs ih =>
    rw [escapeQuotes]
    split
    · rename_i hc; subst hc
      obtain ⟨k, w', h1, h2, h3⟩ := ih (n + 1) w
      refine ⟨k, w', ?_, h2, h3⟩
      rw [h1, bs, List.replicate_succ']; simp [bs]
    · rename_i hb
      split
      · rename_i hc; subst hc
        obtain ⟨k, w', h1, h2, h3⟩ := ih 0 (w ++ bs n ++ ['"'])
        refine ⟨k, w', ?_, fun rest => ?_, ?_⟩
        · rw [h1]; simp [bs]
        · rw [← h2]
          simp only [List.append_assoc, List.cons_append]
          rw [argv_backslashes _ (by decide), argv_backslashes _ (by decide), argv, if_pos rfl,
            if_pos rfl, argv, if_neg (by decide), if_pos rfl, if_pos (by omega),
            show (0 + n + n + 1) / 2 = n by omega, addBack_getD, List.append_assoc]
        · rw [List.reverse_append, List.reverse_cons, List.reverse_cons]
          simp only [List.append_assoc, List.cons_append, List.nil_append]
          rw [takeWhile_stop _ _ _ (by decide)]
          exact h3
      · rename_i hq
        obtain ⟨k, w', h1, h2, h3⟩ := ih 0 (w ++ bs n ++ [c])
        refine ⟨k, w', ?_, fun rest => ?_, ?_⟩
        · rw [h1]; simp [bs]
        · rw [← h2]
          simp only [List.append_assoc, List.cons_append]
          rw [argv_backslashes _ (by decide), argv, if_neg hb, if_neg hq, if_neg (by simp), if_pos rfl,
            addBack_getD, Nat.zero_add, List.append_assoc]
        · rw [List.reverse_append, List.reverse_cons]
          simp only [List.append_assoc, List.cons_append, List.nil_append]
          rw [takeWhile_stop _ _ _ (by simpa using hb)]
          exact h3

/-- The end of an argument: nothing or a blank follows. -/
def after : Str → List Str
  | [] => []
  | _ :: r => argv .outside 0 none r

theorem argv_end (q : Mode) (hq : q ≠ .inside) (n : Nat) (w : Option Str) (rest : Str)
    (hr : rest = [] ∨ ∃ r, rest = ' ' :: r) :
    argv q n w rest = (addBack w n).toList ++ after rest := by
  rcases hr with rfl | ⟨r, rfl⟩
  · simp [argv, after]
  · rw [argv, if_neg (by decide), if_neg (by decide), if_pos ⟨hq, .inl rfl⟩]
    rfl

theorem argv_plain (a : Str) (h : ∀ c ∈ a, isSpecialChar iqmWin c = false) (rest : Str)
    (hr : rest = [] ∨ ∃ r, rest = ' ' :: r) (n : Nat) (w : Option Str)
    (hw : w.isSome ∨ 0 < n ∨ a ≠ []) :
    argv .outside n w (a ++ rest) = (w.getD [] ++ (bs n ++ a)) :: after rest := by
  induction a generalizing n w with
  | nil =>
    rw [List.nil_append, argv_end _ (by decide) _ _ _ hr]
    unfold addBack
    split
    · rename_i h0; subst h0
      rcases w with _ | w
      · simp at hw
      · simp [bs]
    · simp [bs]
  | cons c cs ih =>
    have hc := h c (by simp)
    have hn : ∀ d, (d = ' ' ∨ d = '\t' ∨ d = '"' ∨ d = '^' ∨ d ∈ cmdSpecial) → c ≠ d := by
      intro d hd he
      rw [he, win_table d hd] at hc; simp at hc
    rw [List.cons_append, argv]
    split
    · rename_i hb; subst hb
      simp only [reduceCtorEq, if_false]
      rw [ih (fun d hd => h d (by simp [hd])) _ _ (.inr (.inl (by omega)))]
      rw [bs, List.replicate_succ']; simp [bs]
    · rw [if_neg (hn '"' (by simp)), if_neg]
      · simp only [reduceCtorEq, if_false]
        rw [ih (fun d hd => h d (by simp [hd])) _ _ (.inl rfl)]
        unfold addBack
        split
        · rename_i h0; subst h0; simp [bs]
        · simp [bs]
      · rintro ⟨_, rfl | rfl⟩
        · exact hn ' ' (by simp) rfl
        · exact hn '\t' (by simp) rfl

theorem argv_delivered (a rest : Str) (ha : '\n' ∉ a) (hr : rest = [] ∨ ∃ r, rest = ' ' :: r) :
    argv .outside 0 none (delivered a ++ rest) = a :: after rest := by
  unfold delivered
  split
  · rename_i h; subst h
    simp only [List.cons_append, List.nil_append]
    rw [argv, if_neg (by decide), if_pos rfl, if_neg (by decide), if_neg (by decide),
      if_neg (by decide), argv, if_neg (by decide), if_pos rfl, if_neg (by decide), if_pos rfl,
      argv_end _ (by decide) _ _ _ hr]
    rfl
  · rename_i hne
    split
    · obtain ⟨k, w', h1, h2, h3⟩ := argv_escaped a 0 []
      rw [inner, doubleTrailing_eq (escapeQuotes_newline ha), h3]
      simp only [List.cons_append, List.nil_append, List.append_assoc]
      rw [argv, if_neg (by decide), if_pos rfl, if_neg (by decide), if_neg (by decide),
        if_neg (by decide)]
      rw [show (addBack none (0 / 2)).getD [] = [] from rfl, h2, argv_backslashes _ (by decide), argv,
        if_neg (by decide), if_pos rfl, if_neg (by omega), if_pos rfl,
        show (k + k) / 2 = k by omega, addBack_getD, h1, argv_end _ (by decide) _ _ _ hr]
      simp [bs, addBack]
    · rename_i hs
      have := argv_plain a (not_special_mem (by simpa using hs)) rest hr 0 none (.inr (.inr hne))
      rw [this]; simp [bs]

/-- C08: cmd.exe accepts the quoted arguments as the arguments of a single command, and the program
    called gets exactly the given arguments. -/
theorem C08_windows_round_trip_partial (args : List Str) (h : ∀ a ∈ args, CmdOk a) :
    (cmd false (shellQuoteList .windows args)).map argvWords = some args := by
  cases args with
  | nil => rfl
  | cons a as =>
    unfold argvWords
    have : ∃ t, cmd false ((as.map fun b => ' ' :: shellQuote .windows b).flatten) = some t ∧
        (t = [] ∨ ∃ r, t = ' ' :: r) ∧ after t = as := by
      have has : ∀ b ∈ as, CmdOk b := fun b hb => h b (by simp [hb])
      clear h
      induction as with
      | nil => exact ⟨[], rfl, .inl rfl, rfl⟩
      | cons b bs ih =>
        obtain ⟨t, h1, h2, h3⟩ := ih (fun x hx => has x (by simp [hx]))
        refine ⟨' ' :: (delivered b ++ t), ?_, .inr ⟨_, rfl⟩, ?_⟩
        · simp only [List.map_cons, List.flatten_cons, List.cons_append]
          rw [cmd, if_neg (by decide), if_neg (by decide), if_neg (by decide), if_neg (by decide),
            if_neg (by decide), show shellQuote .windows b = shellQuoteWin b from rfl,
            cmd_quoted b _ (has b (by simp)), h1]
          rfl
        · rw [after, argv_delivered b t (has b (by simp)).newline h2, h3]
    obtain ⟨t, h1, h2, h3⟩ := this
    rw [shellQuoteList, show shellQuote .windows a = shellQuoteWin a from rfl,
      cmd_quoted a _ (h a (by simp)), h1]
    simp only [Option.map_some]
    rw [argv_delivered a t (h a (by simp)).newline h2, h3]

/-- On Windows, what a command line delivers of a word: with backslashes if it is the name of a file. -/
def Argument.native (a : Argument) : Str := if a.isFilePath then a.value.map (fun c => if c = '/' then '\\' else c) else a.value

theorem flatten_quote_map (f : Argument → Str) : ∀ l : List Argument,
    (l.map fun a => ' ' :: shellQuote .windows (f a)).flatten = ((l.map f).map fun b => ' ' :: shellQuote .windows b).flatten := by
  intro l
  rw [List.map_map]
  rfl

/-- C08: in generated command lines for cmd.exe the program is named with backslashes, arguments that are file names
    arrive with backslashes, all others unchanged. -/
theorem C08_windows_command_line_partial (program : Str) (args : List Argument) (hq : ∀ a ∈ args, a.shouldQuote = true)
    (hp : CmdOk (program.map fun c => if c = '/' then '\\' else c)) (h : ∀ a ∈ args, CmdOk a.native) :
    (cmd false (toCommandLine .windows program false args)).map argvWords =
      some ((program.map fun c => if c = '/' then '\\' else c) :: args.map Argument.native) := by
  have he : toCommandLine .windows program false args =
      shellQuoteList .windows ((program.map fun c => if c = '/' then '\\' else c) :: args.map Argument.native) := by
    unfold toCommandLine shellQuoteList
    simp only [Bool.false_eq_true, if_false]
    rw [← flatten_quote_map]
    congr 2
    apply List.map_congr_left
    intro a ha
    rw [if_pos (hq a ha)]
    rfl
  rw [he]
  refine C08_windows_round_trip_partial _ ?_
  intro a ha
  rcases List.mem_cons.mp ha with rfl | ha
  · exact hp
  · obtain ⟨x, hx, rfl⟩ := List.mem_map.mp ha
    exact h x hx

/-- A case: a program and a file name with slashes, and a quoted word with a slash that is no file name. -/
example : (cmd false (toCommandLine .windows "c:/a b/x.exe".toList false
      [{ value := "d/e.o".toList, isFilePath := true }, { value := "/c \"q\"".toList }])).map argvWords =
    some ["c:\\a b\\x.exe".toList, "d\\e.o".toList, "/c \"q\"".toList] := by decide +kernel

/-- Without cmd.exe in between (a process started directly, or a response file, which
    processcommandexecutor.cpp:181 writes with the same function) the circumflexes meant for cmd.exe
    stay: the argument `"&` arrives as `"^&^`. -/
theorem C08_direct_call_finding :
    argvWords (shellQuoteList .windows [['"', '&']]) = [['"', '^', '&', '^']] := by decide

/-- Percent signs are not protected from cmd.exe: `a%PATH%` is passed to it as it is. -/
theorem C08_percent_finding :
    shellQuoteList .windows ["%PATH%".toList] = "%PATH%".toList ∧
    cmd false (shellQuoteList .windows ["%PATH%".toList]) = none := by decide

/-- A backslash before a newline at the end of an argument is doubled, although no quote follows it. -/
theorem C08_newline_finding :
    argvWords (shellQuoteList .windows ["a\\\n".toList]) = ["a\\\\\n".toList] := by decide

/-- Arguments without special characters, and those without quotes, also arrive unchanged when there
    is no cmd.exe. -/
theorem C08_direct_round_trip_partial (args : List Str)
    (h : ∀ a ∈ args, '"' ∉ a ∧ '\n' ∉ a) : argvWords (shellQuoteList .windows args) = args := by
  have hq : ∀ s, '"' ∉ s → insertCarets true s = s := by
    intro s hs
    induction s with
    | nil => rfl
    | cons c cs ih =>
      simp only [List.mem_cons, not_or] at hs
      rw [insertCarets, if_neg (Ne.symm hs.1), if_neg (by simp), ih hs.2]
  have hd : ∀ a, '"' ∉ a ∧ '\n' ∉ a → shellQuoteWin a = delivered a := by
    intro a ha
    unfold shellQuoteWin delivered
    split
    · rfl
    · split
      · rw [hq, inner]
        intro hm
        have : '"' ∈ escapeQuotes 0 a := by
          rw [doubleTrailing_eq (escapeQuotes_newline ha.2), List.mem_append] at hm
          rcases hm with hc | hc
          · exact hc
          · exact List.mem_reverse.mp ((List.takeWhile_sublist _).subset hc)
        rcases mem_escapeQuotes _ _ _ this with hm | hm
        · exact ha.1 hm
        · exact absurd hm (by decide)
      · rfl
  cases args with
  | nil => rfl
  | cons a as =>
    unfold argvWords
    have : ∀ t, t = (as.map fun b => ' ' :: shellQuote .windows b).flatten →
        (t = [] ∨ ∃ r, t = ' ' :: r) ∧ after t = as := by
      have has : ∀ b ∈ as, '"' ∉ b ∧ '\n' ∉ b := fun b hb => h b (by simp [hb])
      clear h
      induction as with
      | nil => rintro t rfl; exact ⟨.inl rfl, rfl⟩
      | cons b bs ih =>
        rintro t rfl
        obtain ⟨h2, h3⟩ := ih (fun x hx => has x (by simp [hx])) _ rfl
        simp only [List.map_cons, List.flatten_cons, List.cons_append]
        refine ⟨.inr ⟨_, rfl⟩, ?_⟩
        rw [after, show shellQuote .windows b = shellQuoteWin b from rfl, hd b (has b (by simp)),
          argv_delivered b _ (has b (by simp)).2 h2, h3]
    obtain ⟨h2, h3⟩ := this _ rfl
    rw [shellQuoteList, show shellQuote .windows a = shellQuoteWin a from rfl, hd a (h a (by simp)),
      argv_delivered a _ (h a (by simp)).2 h2, h3]

/-- Concrete, non-trivial arguments. -/
example : (∀ a ∈ ["a\\\"b & c".toList, "".toList, "dir\\".toList, "my dir\\".toList], CmdOk a) ∧
    shellQuoteList .windows ["a\\\"b & c".toList, "".toList, "dir\\".toList, "my dir\\".toList] =
      "\"a\\\\\\\"b ^& c^\" \"\" dir\\ \"my dir\\\\\"".toList := by
  decide

end Verif.Shell
