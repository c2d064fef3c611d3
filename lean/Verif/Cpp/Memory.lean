import Verif.Cpp.Model
/-!
# C58: which bytes are read

The file is mapped into memory: a byte that is not mapped cannot be read, and the program ends.
-/
namespace Verif.Cpp

/-- `yyinp`, Lexer.h 73-97: where the lexer is (the offset after the current character) and the current character. `none`
    if a byte is read that is not mapped. The last offset that is read is the size of the file. -/
def yyinp (mem : Nat → Option Char) (size : Nat) (p : Nat × Char) : Option (Nat × Char) :=
  let at_ := p.1 + trailing p.2
  if at_ ≤ size then (mem at_).map (fun c => (at_ + 1, c)) else some (at_ + 1, '\x00')

/-- The characters one after the other, Lexer.cpp 64-72. -/
def reads (mem : Nat → Option Char) (size : Nat) : Nat → Option (Nat × Char)
  | 0 => some (0, '\n')
  | n + 1 => (reads mem size n).bind (yyinp mem size)

/-- `mmap`, cppscanner.cpp 285-287: the file and, up to the end of the last page, zeros. -/
def mapped (page : Nat) (content : Str) (i : Nat) : Option Char :=
  if h : i < content.length then some content[i]
  else if i < (content.length + page - 1) / page * page then some '\x00'
  else none

theorem reads_ascii (page : Nat) (content : Str) (ha : ∀ c ∈ content, c.toNat < 128) :
    ∀ n, n ≤ content.length → ∃ c : Char, c.toNat < 128 ∧ reads (mapped page content) content.length n = some (n, c) := by
  intro n
  induction n with
  | zero => intro _; exact ⟨'\n', by decide, rfl⟩
  | succ n ih =>
    intro hn
    obtain ⟨c, hc, h⟩ := ih (by omega)
    have hlt : n < content.length := by omega
    have ht : trailing c = 0 := by unfold trailing; rw [if_pos hc]
    refine ⟨content[n], ha _ (List.getElem_mem hlt), ?_⟩
    simp only [reads, h, Option.bind_some, yyinp, ht, Nat.add_zero]
    rw [if_pos (by omega)]
    simp [mapped, hlt]

/-- **C58 finding.** After the last character of the file the byte after it is read. If the size of the file is a multiple of the
    size of a page, this byte is not mapped: the program ends with an error. Shown for any ASCII file of such a size. -/
theorem C58_reads_past_the_end (page : Nat) (hp : 0 < page) (content : Str) (ha : ∀ c ∈ content, c.toNat < 128)
    (hs : content.length % page = 0) : reads (mapped page content) content.length (content.length + 1) = none := by
  obtain ⟨c, hc, h⟩ := reads_ascii page content ha content.length (Nat.le_refl _)
  have ht : trailing c = 0 := by unfold trailing; rw [if_pos hc]
  simp only [reads, h, Option.bind_some, yyinp, ht, Nat.add_zero]
  rw [if_pos (Nat.le_refl _)]
  have : (content.length + page - 1) / page * page = content.length := by
    obtain ⟨k, hk⟩ := Nat.dvd_of_mod_eq_zero hs
    rw [hk]
    have : page * k + page - 1 = page * k + (page - 1) := by omega
    rw [this, Nat.mul_add_div hp, Nat.div_eq_of_lt (by omega), Nat.add_zero, Nat.mul_comm]
  unfold mapped
  rw [dif_neg (by omega), this, if_neg (by omega)]
  rfl

/-- **C58.** No byte further on is read, and none at all that is not mapped if the size of the file is not a multiple of the
    size of a page: for any file, in whatever encoding. -/
theorem C58_reads_mapped (page : Nat) (hp : 0 < page) (content : Str) (hs : content.length % page ≠ 0) (n : Nat) :
    reads (mapped page content) content.length n ≠ none := by
  induction n with
  | zero => simp [reads]
  | succ n ih =>
    cases h : reads (mapped page content) content.length n with
    | none => exact absurd h ih
    | some p =>
      simp only [reads, h, Option.bind_some, yyinp]
      split
      · rename_i hle
        have key : content.length < (content.length + page - 1) / page * page := by
          have h1 := Nat.div_add_mod content.length page
          have h3 := Nat.mod_lt content.length hp
          generalize content.length % page = k at h1 h3 hs
          generalize content.length / page = q at h1
          have h2 : content.length + page - 1 = page * (q + 1) + (k - 1) := by
            rw [Nat.mul_add]; omega
          rw [h2, Nat.mul_add_div hp, Nat.div_eq_of_lt (by omega), Nat.add_zero, Nat.mul_comm, Nat.mul_add]
          omega
        unfold mapped
        by_cases h1 : p.1 + trailing p.2 < content.length
        · rw [dif_pos h1]; simp
        · rw [dif_neg h1, if_pos (by omega)]; simp
      · simp

example : reads (mapped 4 "abc".toList) 3 4 = some (4, '\x00') := by decide +kernel
example : reads (mapped 4 "abcd".toList) 4 5 = none := C58_reads_past_the_end 4 (by decide) _ (by decide) (by decide)
example : reads (mapped 4 "abc".toList) 3 100 ≠ none := C58_reads_mapped 4 (by decide) _ (by decide) 100

end Verif.Cpp
