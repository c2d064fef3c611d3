import Verif.TextF.Props

/-! Examples for C122. -/
namespace Verif.TextF

/-- Two lines, with characters that take one, two, three and four bytes. -/
def two : List Text := [[97, 228, 8364], [], [98, 128512]]

theorem two_lines : ∀ l ∈ two, Line l := by
  unfold two Line Plain; decide

/-- They are written and read back, with a buffer of four bytes that is written in between. -/
example : readLines 4 9 (tOpen (tRun 4 (tOpen ⟨[1, 2, 3], none⟩ false true false sUtf8)
    (two.map .writeLine ++ [.close])).1.st.disk true false false sUtf8) = two :=
  C122_lines_partial 4 _ two two_lines 9 (by decide)

example : (tRun 4 (tOpen ⟨[1, 2, 3], none⟩ false true false sUtf8) (two.map .writeLine ++ [.close])).1.st.disk.bytes =
    [97, 195, 164, 226, 130, 172, 10, 10, 98, 240, 159, 152, 128, 10] := by decide +kernel

/-- Appending. -/
example : (tRun 4 (tOpen ⟨[120, 10], none⟩ false false true sUtf8) [.writeLine [97], .write [98], .close]).1.st =
    ⟨⟨[120, 10, 97, 10, 98], none⟩, none⟩ :=
  C122_written 4 [120, 10] false true (.inr rfl) sUtf8 [.writeLine [97], .write [98]] (by decide)

/-- A file with both kinds of line ends and a last line without one. -/
example : LinesOk [([97], true), ([], false), ([98, 13], true)] [99] ∧
    fileOf [([97], true), ([], false), ([98, 13], true)] [99] = [97, 13, 10, 10, 98, 13, 13, 10, 99] ∧
    linesOf [([97], true), ([], false), ([98, 13], true)] [99] = [[97], [], [98, 13], [99]] := by
  unfold LinesOk Plain; decide

example : Plain [[97], [10, 8364]].flatten ∧ 13 ∉ [[97], [10, 8364]].flatten := by unfold Plain; decide

/-- A binary file that is overwritten in the middle, read, extended behind its end and cut. -/
example : (bOpen ⟨[1, 2, 3, 4], none⟩ 3).map (fun s => (bRun 2 s
    [.seek 1, .write [8], .write [9], .pos, .read 5, .atEof, .seek 6, .write [5, 5, 5], .size, .resize 8,
     .pos, .close, .size])) =
    some (⟨⟨[1, 8, 9, 4, 0, 0, 5, 5], none⟩, none⟩,
      [.unit, .unit, .unit, .num 3, .bytes [4], .bool true, .unit, .unit, .num 9, .unit, .num 8, .unit, .error]) := by
  decide +kernel

example : ∃ s, bOpen ⟨[1, 2, 3, 4], none⟩ 3 = some s := ⟨_, rfl⟩

/-- **C122 finding.** A byte order mark at the start of a line does not come back. -/
theorem C122_finding_bom :
    readLines 16384 9 (tOpen (tRun 16384 (tOpen ⟨[], none⟩ false true false sUtf8)
      ([[97], [bom, 98]].map .writeLine ++ [.close])).1.st.disk true false false sUtf8) = [[97], [98]] := by
  decide +kernel

/-- **C122 finding.** A carriage return at the end of a line does not come back. -/
theorem C122_finding_cr :
    readLines 16384 9 (tOpen (tRun 16384 (tOpen ⟨[], none⟩ false true false sUtf8)
      ([[97, 13], [98]].map .writeLine ++ [.close])).1.st.disk true false false sUtf8) = [[97], [98]] := by
  decide +kernel

/-- **C122 finding.** Reading everything at once drops carriage returns everywhere; reading the same file by
lines does not. -/
theorem C122_finding_cr_all :
    (tStep 16384 (tOpen ⟨[97, 13, 98], none⟩ true false false sUtf8) .readAll).2 = .text [97, 98] ∧
    (tStep 16384 (tOpen ⟨[97, 13, 98], none⟩ true false false sUtf8) .readLine).2 = .text [97, 13, 98] := by
  decide +kernel

def sUtf16 : Text := [85, 84, 70, 45, 49, 54]

/-- **C122 finding.** With UTF-16, text that is written in two pieces has a byte order mark in the middle. -/
theorem C122_finding_utf16_pieces :
    (tStep 16384 (tOpen (tRun 16384 (tOpen ⟨[], none⟩ false true false sUtf16)
      ([[97], [98]].map .write ++ [.close])).1.st.disk true false false sUtf16) .readAll).2 =
      .text [97, bom, 98] := by
  decide +kernel

/-- **C122 finding.** With UTF-16, the end of a line is one byte, so that what follows is shifted by one
byte: two lines that are written one after the other make a file that is not UTF-16. -/
theorem C122_finding_utf16_lines :
    (tRun 16384 (tOpen ⟨[], none⟩ false true false sUtf16)
      ([[97], [98]].map .writeLine ++ [.close])).1.st.disk.bytes =
      [255, 254, 97, 0, 10, 255, 254, 98, 0, 10] ∧
    (tStep 16384 (tOpen ⟨[255, 254, 97, 0, 10, 255, 254, 98, 0, 10], none⟩ true false false sUtf16) .readAll).2 =
      .text [97, 65290, 25342, 2560] := by
  decide +kernel

/-- **C122 finding.** With UTF-16, a proper file of two lines is not read as two lines. -/
theorem C122_finding_utf16_read :
    readLines 16384 9 (tOpen ⟨[255, 254, 97, 0, 10, 0, 98, 0, 10, 0], none⟩ true false false sUtf16) =
      [[97], [25088, 2560], []] := by
  decide +kernel

/-- **C122 finding.** If the disk gets full, writing a binary file and closing it work as usual, but
the file is cut off. -/
theorem C122_finding_disk_full :
    (bOpen ⟨[], some 3⟩ 2).map (fun s => bRun 16384 s [.write [1, 2, 3, 4, 5], .close]) =
      some (⟨⟨[1, 2, 3], some 3⟩, none⟩, [.unit, .unit]) ∧
    (bOpen ⟨[], some 3⟩ 2).map (fun s => bRun 2 s [.write [1, 2, 3, 4, 5], .close]) =
      some (⟨⟨[1, 2, 3], some 3⟩, none⟩, [.unit, .unit]) := by
  decide +kernel

example : enc8 0x20AC = [0xE2, 0x82, 0xAC] := C122_utf8 '€'

example : (tStep 16384 (tOpen ⟨[], none⟩ true false false sUtf8) (.setCodec sUtf16)).1.codec = .utf16 :=
  ((C122_set_codec _ _ _).2 _ rfl (by decide)).1

end Verif.TextF
