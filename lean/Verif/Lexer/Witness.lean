import Verif.Lexer.Props
/-!
# Examples, and what the lexer gets wrong
-/
namespace Verif.Lexer

/-- The tables for ASCII texts. -/
def ascii : Uni where
  isSpace c := c == ' ' || (9 ≤ c.toNat && c.toNat ≤ 13)
  isLetter c := (65 ≤ c.toNat && c.toNat ≤ 90) || (97 ≤ c.toNat && c.toNat ≤ 122)
  isDigit c := 48 ≤ c.toNat && c.toNat ≤ 57
  isLetterOrNumber c := (65 ≤ c.toNat && c.toNat ≤ 90) || (97 ≤ c.toNat && c.toNat ≤ 122) ||
    (48 ≤ c.toNat && c.toNat ≤ 57)
  numOk _ := true

theorem ascii_ok : UniOk ascii :=
  ⟨by decide, by decide, by decide, by decide,
    fun c _ => by simp [ascii], fun c _ => by simp [ascii]⟩

/-- The tokens of a text. -/
abbrev toks (qml : Bool) (n : Nat) (code : String) : Option (List Tok) :=
  tokens ascii qml n (setCode code.toList 1)

/-- What is seen of the tokens: kind, start, length, line, column. -/
abbrev shape (qml : Bool) (n : Nat) (code : String) : Option (List (Kind × Nat × Nat × Nat × Int)) :=
  (toks qml n code).map (·.map fun t => (t.kind, t.start, t.length, t.line, t.column))

/-! A project file with comments, strings, symbols that are prefixes of each other. -/

example : shape true 40 "import qbs // c\nA {\n  x: 'a' >>> 12\n}" = some [
    (.word .kImport, 0, 6, 1, 1), (.identifier, 7, 3, 1, 8), (.identifier, 16, 1, 2, 1),
    (.lbrace, 18, 1, 2, 3), (.identifier, 22, 1, 3, 3), (.colon, 23, 1, 3, 4),
    (.stringLiteral, 25, 3, 3, 6), (.gtGtGt, 29, 3, 3, 10), (.numericLiteral, 33, 2, 3, 14),
    (.rbrace, 36, 1, 4, 1), (.eof, 37, 0, 4, 2)] := by decide +kernel

example : shape false 40 "a++\n++b; return\n1" = some [
    (.identifier, 0, 1, 1, 1), (.plusPlus, 1, 2, 1, 2), (.semicolon, 4, 2, 2, 1),
    (.plusPlus, 4, 2, 2, 1), (.identifier, 6, 1, 2, 3), (.semicolon, 7, 1, 2, 4),
    (.word .kReturn, 9, 6, 2, 6), (.semicolon, 15, 0, 3, 0), (.numericLiteral, 16, 1, 3, 1),
    (.eof, 17, 0, 3, 2)] := by decide +kernel

/-- The hypotheses of the theorems hold for this text: all tokens are read, and the tokens of each of
the theorems occur. -/
example : ∃ ts, toks false 36 "a++\n++b; return\n1" = some ts ∧
    2 * "a++\n++b; return\n1".toList.length + 2 ≤ 36 ∧
    (∃ t ∈ ts, Inserted "a++\n++b; return\n1".toList t ∧ t.length = 0) ∧
    (∃ t ∈ ts, Inserted "a++\n++b; return\n1".toList t ∧ t.length = 2) ∧
    (∃ t ∈ ts, ¬ Inserted "a++\n++b; return\n1".toList t ∧ spelling t.kind = some "++") ∧
    (∃ t ∈ ts, t.kind = .word .kReturn) ∧ (∃ t ∈ ts, t.kind = .identifier ∧ t.text = none) :=
  ⟨(toks false 36 "a++\n++b; return\n1").getD [], by decide +kernel, by decide +kernel,
    by decide +kernel, by decide +kernel, by decide +kernel, by decide +kernel, by decide +kernel⟩

/-- A word, a number and a symbol that are found at the place of a token (`C112_words_found`,
`C112_numbers_found`, `C112_symbols_found`). -/
example : "if 12".toList.drop 0 = 'i' :: ['f'] ++ " 12".toList ∧ ascii.isLetter 'i' = true ∧
    "if 12".toList.drop 3 = '1' :: ['2'] ++ [] ∧ ascii.isDigit '2' = true ∧
    shape true 9 "if 12" = some [(.word .kIf, 0, 2, 1, 1), (.numericLiteral, 3, 2, 1, 4),
      (.eof, 5, 0, 1, 6)] := by decide +kernel

/-- Words that are keywords only in project files. -/
example : shape true 9 "on signal" = some [(.word .kOn, 0, 2, 1, 1), (.word .kSignal, 3, 6, 1, 4),
      (.eof, 9, 0, 1, 10)] ∧
    shape false 9 "on signal" = some [(.identifier, 0, 2, 1, 1), (.identifier, 3, 6, 1, 4),
      (.eof, 9, 0, 1, 10)] := ⟨by decide +kernel, by decide +kernel⟩

/-- A string with several kinds of escape sequences has the value of ECMA-262. -/
example : Denotes ascii true '"' "a\\n\\x41\\u00e4\\0b\\q".toList
    ['a', '\n', 'A', 'ä', nul, 'b', 'q'] := by
  refine .plain 'a' _ _ (by decide) (by decide) (by decide) ?_
  refine .single 'n' '\n' _ _ (by decide) ?_
  refine .hex '4' '1' 4 1 _ _ (by decide) (by decide) ?_
  refine .unicode '0' '0' 'e' '4' 0 0 14 4 _ _ (by decide) (by decide) (by decide) (by decide)
    (Or.inl (by decide)) ?_
  refine .zero _ _ (by decide) (fun _ => by decide) ?_
  refine .plain 'b' _ _ (by decide) (by decide) (by decide) ?_
  refine .other 'q' _ _ ?_ (by decide) (by decide) (Or.inr (by decide)) (by decide) (by decide)
    (fun _ => by decide) .nil
  intro x hx
  simp [singleEscapes] at hx

example : (toks true 3 "\"a\\n\\x41\\u00e4\\0b\\q\"").map (·.map (·.text)) =
    some [some ['a', '\n', 'A', 'ä', nul, 'b', 'q'], none] := by decide +kernel

/-- The string of `C113_roundtrip`. -/
example : Verif.Literal.litStr "a\"\\b".toList = "\"a\\\"\\\\b\"".toList ∧
    (toks true 3 "\"a\\\"\\\\b\"").map (·.map (·.text)) = some [some "a\"\\b".toList, none] := by
  decide +kernel

/-- The hypothesis of `C112_no_oob_partial`. -/
example : ¬ ['\\'] <:+ "a: 1".toList ∧ ¬ ['\\', '0'] <:+ "a: 1".toList := by decide +kernel

/-! ### Findings -/

/-- **C112 finding.** If a project file ends with a backslash in a string literal, or with `\0` in one,
then the lexer reads behind the end of the text (qmljslexer.cpp 588-589, 660-663, 632). -/
theorem C112_reads_behind_end : toks true 9 "x: \"a\\" = none ∧ toks true 9 "x: \"a\\0" = none := by
  decide +kernel

/-- **C112 finding.** A NUL character in a project file ends it: everything behind it is ignored, without
an error. -/
theorem C112_nul : shape true 9 "a\x00 b" = some [(.identifier, 0, 1, 1, 1), (.eof, 1, 0, 1, 2)] := by
  decide +kernel

/-- **C112 finding.** A comment without an end is not an error of the lexer: it is the operator `/`,
whose text is the rest of the file. -/
theorem C112_open_comment : shape true 9 "a /* b" =
    some [(.identifier, 0, 1, 1, 1), (.divide, 2, 4, 1, 3), (.eof, 6, 0, 1, 7)] := by
  decide +kernel

/-- **C112 finding.** The semicolon that is inserted after `return` stands in the first line, but has
the number of the line after it, and column 0. -/
theorem C112_inserted_place : shape false 9 "return\n1" =
      some [(.word .kReturn, 0, 6, 1, 1), (.semicolon, 6, 0, 2, 0), (.numericLiteral, 7, 1, 2, 1),
        (.eof, 8, 0, 2, 2)] ∧
    lineOf "return\n1".toList 1 6 = 1 ∧ columnOf "return\n1".toList 6 = 7 := by decide +kernel

/-- **C112 finding.** A comment with a newline in it counts as a newline in ECMA-262 (7.4), so that
`return` ends before it. The lexer inserts no semicolon. -/
theorem C112_newline_in_comment : shape false 9 "return /*\n*/ 1" =
    some [(.word .kReturn, 0, 6, 1, 1), (.numericLiteral, 13, 1, 2, 4), (.eof, 14, 0, 2, 5)] := by
  decide +kernel

/-- **C112 finding.** Before `++` and `--` at the beginning of a line a semicolon is inserted even if the
statement is not complete. So `a =`, `++b` on two lines, which is an assignment in ECMA-262, is read as
`a = ; ++b`. -/
theorem C112_increment : shape false 9 "a =\n++b" =
    some [(.identifier, 0, 1, 1, 1), (.eq, 2, 1, 1, 3), (.semicolon, 4, 2, 2, 1),
      (.plusPlus, 4, 2, 2, 1), (.identifier, 6, 1, 2, 3), (.eof, 7, 0, 2, 4)] := by
  decide +kernel

/-- **C113 finding.** Whether `\0` is a NUL character is decided by the second character after it
(`_codePtr[1]`, qmljslexer.cpp 632) instead of the first one. So `"\0a1"` is not read as NUL, `a`, `1`. -/
theorem C113_zero : Denotes ascii false '"' "\\0a1".toList [nul, 'a', '1'] ∧
    (toks true 3 "\"\\0a1\"").map (·.map (·.text)) = some [some "00a1".toList, none] := by
  refine ⟨?_, by decide +kernel⟩
  refine .zero _ _ (by decide) (fun h => by cases h) ?_
  refine .plain 'a' _ _ (by decide) (by decide) (by decide) ?_
  exact .plain '1' _ _ (by decide) (by decide) (by decide) .nil

/-- **C113 finding.** A backslash at the end of a line continues the string in the next line without a
newline in ECMA-262. The lexer keeps the newline. -/
theorem C113_continuation : Denotes ascii false '"' "a\\\nb".toList "ab".toList ∧
    (toks true 3 "\"a\\\nb\"").map (·.map (·.text)) = some [some "a\nb".toList, none] := by
  refine ⟨?_, by decide +kernel⟩
  refine .plain 'a' _ _ (by decide) (by decide) (by decide) ?_
  refine .continuation '\n' _ _ rfl (by decide) ?_
  exact .plain 'b' _ _ (by decide) (by decide) (by decide) .nil

/-- **C113 finding.** `\X` is no escape sequence for a character code in ECMA-262, but the lexer takes it
for one. -/
theorem C113_upper_x : Denotes ascii false '"' "\\X41".toList "X41".toList ∧
    (toks true 3 "\"\\X41\"").map (·.map (·.text)) = some [some "A".toList, none] := by
  refine ⟨?_, by decide +kernel⟩
  refine .other 'X' _ _ ?_ (by decide) (by decide) (Or.inr (by decide)) (by decide) (by decide)
    (fun h => by cases h) ?_
  · intro x hx; simp [singleEscapes] at hx
  · refine .plain '4' _ _ (by decide) (by decide) (by decide) ?_
    exact .plain '1' _ _ (by decide) (by decide) (by decide) .nil

/-- **C113 finding.** If the hexadecimal digits of an escape sequence are missing, there is no error, and
the letter appears twice in the string. -/
theorem C113_doubled : (toks true 3 "\"\\xq\"").map (·.map (·.text)) =
      some [some "xxq".toList, none] ∧
    (toks true 3 "\"\\u12\"").map (·.map (·.text)) = some [some "uu12".toList, none] := by
  decide +kernel

end Verif.Lexer
