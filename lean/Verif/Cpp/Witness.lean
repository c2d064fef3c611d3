import Verif.Cpp.Props
import Verif.Cpp.Memory
/-!
# C58, C59: examples, and where the scan goes wrong
-/
namespace Verif.Cpp

def keywords : Str → Bool := fun s => ["int", "double", "extern", "and", "or"].contains (String.ofList s)

def opts : Opts := ⟨keywords, false, true, false, true⟩

def optsM : Opts := ⟨keywords, false, true, true, true⟩

def plains (s : String) : List Elem := s.toList.map (fun c => .plain (ch c))

def sp : Elem := .gap (.space (ch ' '))

/-- A file with includes and with things that look like includes -/
def sample : List Line :=
  [ .code [] (some [.ch (ch ' '), .ch (ch '"'), .splice [], .ch (ch '#')]),
    .incl [.space (ch ' ')] true [.block (word "x")] false [] true (word "a/b.h") [sp] (some [.ch (ch '"')]),
    .code [] none,
    .directive [] false [] (plains "define" ++ [sp] ++ plains "X" ++ [sp, .literal [] '"' [.ch (ch '\''), .esc (ch '"')]]) none,
    .incl [] false [.splice [ch ' ']] true [.splice []] false (word "c") [] none,
    .code (plains "x=" ++ [.raw ['u', '8'] (word "d") (word ")\"\n#include \"no\"\n"), .plain (ch ';')]) none,
    .code (plains "y=" ++ [.literal ['L'] '\'' [.ch (ch '"')]] ++ plains "/2;" ++ [.gap (.block (word "\n#include <no>\n*"))]) none ]

example : fileText sample = word ("// \"\\\n#\n %:/*x*/include\"a/b.h\" //\"\n\n#define X \"'\\\"\"\n#\\ \nimport\\\n<c>\n" ++
    "x=u8R\"d()\"\n#include \"no\"\n)d\";\ny=L'\"'/2;/*\n#include <no>\n**/") := by decide +kernel

example : sample.filterMap Line.included = [(true, "a/b.h".toList), (false, "c".toList)] := by decide +kernel

example : (scanFile opts (bytes (fileText sample))).map (·.includes) = some [(true, "a/b.h".toList), (false, "c".toList)] := by
  decide +kernel

theorem wordsOk : WordsOk keywords := ⟨by decide +kernel, by decide +kernel, by decide +kernel, by decide +kernel⟩

theorem sampleOk : FileOk keywords sample := by
  refine ⟨?_, by decide, ?_, by decide +kernel⟩
  · intro l hl
    simp only [sample, List.mem_cons, List.not_mem_nil, or_false] at hl
    rcases hl with rfl | rfl | rfl | rfl | rfl | rfl | rfl
    all_goals
      simp (config := { decide := true }) [Line.Ok, pound, Cpp.Ok, LeadOk, GapsOk, CommentOk, Part.Ok, Gap.Ok, Blank, Plain, plains, sp, word, ch, fromToken, firstWord, elemsText, Elem.text,
        Gap.text, Part.text, partsText, gapsText, commentText, bytes, isSpace, Gap.isSplice, noEnd, peek, Sep, identChar]
  · show ∀ u ∈ fileText sample, Utf8 u ∧ u.1 ≠ '\x00'
    decide +kernel

example : (scanFile opts (bytes (fileText sample))).map (·.includes) = some [(true, "a/b.h".toList), (false, "c".toList)] := by
  rw [C58_found_partial opts rfl wordsOk sample sampleOk]
  decide +kernel

example : scanFile opts (bom ++ bytes (fileText sample)) = scanFile opts (bytes (fileText sample)) :=
  C58_bom opts _ (by decide +kernel)

/-- A module interface unit -/
def moduleSample : List Line :=
  [ .fragment [] [] (plains ";") none,
    .incl [] false [] false [.space (ch ' ')] false (word "v") [] none,
    .declared [] (some [.space (ch ' ')]) [.space (ch ' ')] (word "a") [⟨[], [.space (ch ' ')], word "b"⟩]
      (some ⟨[], [], word "p"⟩) [] [] none,
    .imported [] none [.space (ch ' ')] (.module (word "c") [⟨[], [], word "d"⟩]) [] [] none,
    .imported [] (some [.space (ch ' ')]) [.space (ch ' ')] (.partition [] (word "q")) [] [] none,
    .imported [] none [] (.angle [] (word "vec") [] []) [] [] none,
    .exported [] [.space (ch ' ')] (plains "int" ++ [sp] ++ plains "f();") none ]

example : fileText moduleSample =
    word "module;\n#include <v>\nexport module a. b:p;\nimport c.d;\nexport import :q;\nimport<vec>;\nexport int f();" := by
  decide +kernel

theorem moduleSampleOk : FileOk keywords moduleSample := by
  refine ⟨?_, by decide, ?_, by decide +kernel⟩
  · intro l hl
    simp only [moduleSample, List.mem_cons, List.not_mem_nil, or_false] at hl
    rcases hl with rfl | rfl | rfl | rfl | rfl | rfl | rfl
    all_goals
      simp (config := { decide := true }) [Line.Ok, pound, Cpp.Ok, LeadOk, GapsOk, CommentOk, Part.Ok, Gap.Ok, Blank, Plain, plains, sp, word, ch, fromToken, firstWord, elemsText, Elem.text,
        Gap.text, Part.text, partsText, gapsText, commentText, bytes, isSpace, Gap.isSplice, noEnd, peek, Sep, identChar,
        ExportOk, NameOk, WordOk, Step.Ok, Target.Ok, keywords]
  · show ∀ u ∈ fileText moduleSample, Utf8 u ∧ u.1 ≠ '\x00'
    decide +kernel

example : ∃ r, scanFile optsM (bytes (fileText moduleSample)) = some r ∧
    r.part = "a.b:p".toList ∧ r.provides = "a.b:p".toList ∧ r.isInterface = true ∧
    r.requiresModules = ["c.d".toList, "a.b:q".toList, "<vec>".toList] := by
  obtain ⟨r, h1, h2, h3, h4, h5⟩ := C59_modules_partial optsM rfl wordsOk moduleSample moduleSampleOk
  refine ⟨r, h1, ?_, ?_, ?_, ?_⟩
  · rw [h2]; decide +kernel
  · rw [h3]; decide +kernel
  · rw [h4]; decide +kernel
  · rw [h5]; decide +kernel

/-! ## Where the scan goes wrong -/

def includesOf (content : String) : Option (List (Bool × String)) :=
  (scanFile opts content.toList).map (fun r => r.includes.map (fun x => (x.1, String.ofList x.2)))

def needsOf (o : Opts) (content : String) : Option (List String) :=
  (scanFile o content.toList).map (fun r => r.requiresModules.map String.ofList)

example : includesOf "#include \"a.h\"\n" = some [(true, "a.h")] := by decide +kernel

/-- **C58 finding.** A character of Latin-1 before the end of the line in a comment hides the next line: the bytes after it
    are taken for the rest of a character in UTF-8. -/
theorem C58_latin1_hides : includesOf "// caf\xe9\n#include \"a.h\"\n" = some [] := by decide +kernel

/-- **C58 finding.** A `#` on a line of its own, which the language allows, hides an include in the next line. -/
theorem C58_null_directive_hides : includesOf "#\n#include \"a.h\"\n" = some [] := by decide +kernel

/-- **C58 finding.** An include after an escaped line break at the beginning of a line is not found. -/
theorem C58_splice_hides : includesOf "\\\n#include \"a.h\"\n" = some [] := by decide +kernel

/-- **C58 finding.** A line break that is escaped within the word is not allowed for. -/
theorem C58_splice_in_word : includesOf "#inc\\\nlude \"a.h\"\n" = some [] := by decide +kernel

/-- **C58 finding.** A NUL hides everything after it. -/
theorem C58_nul_hides : includesOf "\x00\n#include \"a.h\"\n" = some [] := by decide +kernel

/-- **C58 finding.** The quotes in numbers (digit separators) are taken for the beginning of a character literal. What is in
    a literal after that is taken for code: here a comment begins, and the include is not found. -/
theorem C58_digit_separator_hides : includesOf "f(1'000, \"'\", \"/*\");\n#include \"a.h\"\n" = some [] := by decide +kernel

/-- **C58 finding.** For the same reason, includes can be found in a raw string. -/
theorem C58_digit_separator_shows : includesOf "f(1'000, R\"(\n#include \"no.h\"\n)\");\n" = some [(true, "no.h")] := by
  decide +kernel

/-- **C58 finding.** A function that returns a type of the name `module` (a name like any other before C++20) hides the includes in its body, and another module
    is thought to be needed. -/
theorem C58_module_function_hides : includesOf "module create() {\n#include \"a.h\"\n}\n" = some [] ∧
    needsOf opts "module create() {\n#include \"a.h\"\n}\n" = some ["create"] := by
  constructor <;> decide +kernel

/-- **C58 finding.** `#include_next` is not taken for an include. -/
theorem C58_include_next_missed : includesOf "#include_next <a.h>\n" = some [] := by decide +kernel

/-- **C58 finding.** In a comment, two backslashes at the end of the line: the language takes the second for an escaped line
    break, so the next line is part of the comment; the scanner does not. -/
theorem C58_comment_continues : includesOf "// C:\\\\\n#include \"a.h\"\n" = some [(true, "a.h")] := by decide +kernel

/-- **C58 finding.** A name of which only the opening quote is there: the rest of the file is reported as the name. -/
theorem C58_lone_quote : includesOf "#include \"\nint x;\n" = some [(true, "\nint x;\n")] := by decide +kernel

/-- **C58 finding.** Of a name that is not closed, the last character is lost. -/
theorem C58_unclosed_name : includesOf "#include \"ab\nint x;\n" = some [(true, "a")] := by decide +kernel

/-- **C59 finding.** Of the name of a partition with dots, only the first word is recorded. -/
theorem C59_partition_cut : (scanFile optsM "export module m:a.b;\n".toList).map (fun r => String.ofList r.provides) = some "m:a" := by
  decide +kernel

/-- **C59 finding.** Of a header unit in a directory, only the first word and what follows a dot is recorded. -/
theorem C59_header_unit_cut : needsOf opts "import <sys/types.h>;\n" = some ["<sys.h>"] := by decide +kernel

/-- **C59 finding.** A header unit in quotes is not recorded at all. -/
theorem C59_quoted_unit_missed : needsOf opts "import \"a.h\";\n" = some [] := by decide +kernel

/-- **C59 finding.** An import that is not at the beginning of a line is not found. -/
theorem C59_second_on_line_missed : needsOf opts "import a; import b;\n" = some ["a"] := by decide +kernel

end Verif.Cpp
