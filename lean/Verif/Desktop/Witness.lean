import Verif.Desktop.Props

/-! # C129: concrete cases -/

namespace Verif.Desktop

def lines : List Line :=
  [.comment "c".toList, .sect mainSection, .entry ['A'] ['1'], .blank, .entry ['B'] ['2'], .sect ['X'], .entry ['A'] ['3']]

def raws : List Text := ["# c", "[Desktop Entry]", "A=1", "", "  B=2 ", "[X]", "A=3"].map String.toList

def userKeys : List (Text × Text) := [(['B'], ['4']), (['C'], ['x', '=', 'y'])]
def defaultKeys : List (Text × Text) := [(['A'], ['0']), (['B'], ['0']), (['D'], ['5'])]

example : generate raws userKeys defaultKeys =
    some (["[Desktop Entry]", "A=1", "B=4", "C=x=y", "D=5", "", "[X]", "A=3", ""].map String.toList) := by decide +kernel

/-! The file is as the theorem requires. -/

example : AllWritten ["A=1".toList, "  B=2 ".toList] [.entry ['A'] ['1'], .entry ['B'] ['2']] :=
  .cons ⟨[], [], by decide, by decide, by decide⟩ (.cons ⟨[' ', ' '], [' '], by decide, by decide, by decide⟩ .nil)

theorem space_one {c : Char} (h : isSpace c = false) : NoSpaceAround [c] :=
  ⟨fun x hx => (by simp at hx; rw [← hx]; exact h), fun x hx => (by simp at hx; rw [← hx]; exact h)⟩

theorem entry_one {c d : Char} (h1 : isSpace c = false) (h2 : isSpace d = false) (h3 : c ≠ '#') (h4 : c ≠ '[') (h5 : c ≠ '=') :
    (Line.entry [c] [d]).Ok :=
  ⟨by simp, by simpa using h3, by simpa using h4, by simpa using fun e => h5 e.symm, space_one h1, space_one h2⟩

def small : List Line := [.sect mainSection, .entry ['A'] ['1'], .sect ['X'], .entry ['A'] ['3']]

theorem small_split {a b : List Line} {l : Line} (h : small = a ++ l :: b) :
    (a = [] ∧ l = .sect mainSection ∧ b = [.entry ['A'] ['1'], .sect ['X'], .entry ['A'] ['3']]) ∨
    (a = [.sect mainSection] ∧ l = .entry ['A'] ['1'] ∧ b = [.sect ['X'], .entry ['A'] ['3']]) ∨
    (a = [.sect mainSection, .entry ['A'] ['1']] ∧ l = .sect ['X'] ∧ b = [.entry ['A'] ['3']]) ∨
    (a = [.sect mainSection, .entry ['A'] ['1'], .sect ['X']] ∧ l = .entry ['A'] ['3'] ∧ b = []) := by
  unfold small at h
  generalize mainSection = m at h ⊢
  rcases a with - | ⟨x1, - | ⟨x2, - | ⟨x3, - | ⟨x4, a⟩⟩⟩⟩ <;> simp at h <;> grind

example : Valid small := by
  have hm : mainSection ≠ ['X'] := by decide
  have hm' : mainSection ≠ [] := by decide
  refine ⟨?_, ?_, ?_, ?_, by simp [small]⟩
  · intro l hl
    unfold small at hl
    generalize mainSection = m at hl hm hm'
    simp at hl
    rcases hl with rfl | rfl | rfl | rfl
    · exact hm'
    · exact entry_one (by decide) (by decide) (by decide) (by decide) (by decide)
    · show ['X'] ≠ []; simp
    · exact entry_one (by decide) (by decide) (by decide) (by decide) (by decide)
  · intro a k v b h
    have := small_split h
    generalize mainSection = m at this
    exact ⟨m, by rcases this with ⟨-, h, -⟩ | ⟨rfl, -, -⟩ | ⟨-, h, -⟩ | ⟨rfl, -, -⟩ <;> simp_all⟩
  · intro a s b h hs
    have := small_split h
    generalize mainSection = m at this hm hm'
    rcases this with ⟨-, h1, rfl⟩ | ⟨-, h1, rfl⟩ | ⟨-, h1, rfl⟩ | ⟨-, h1, rfl⟩ <;> simp_all
  · intro a k v b v' c h
    have := small_split h
    refine ⟨['X'], ?_⟩
    generalize mainSection = m at this hm hm'
    rcases this with ⟨-, h1, h2⟩ | ⟨-, h1, h2⟩ | ⟨-, h1, h2⟩ | ⟨-, h1, h2⟩
    · cases h1
    · rcases b with - | ⟨x1, b⟩ <;> simp_all
    · cases h1
    · rcases b with - | ⟨x1, b⟩ <;> simp_all

example : Simple small := by
  refine ⟨?_, ?_⟩
  · intro k v h
    unfold small at h
    generalize mainSection = m at h
    simp at h
    rcases h with ⟨-, rfl⟩ | ⟨-, rfl⟩ <;> decide
  · intro a s b s' c h
    have := small_split h
    refine ⟨['A'], ['1'], ?_⟩
    generalize mainSection = m at this
    rcases this with ⟨-, h1, h2⟩ | ⟨-, h1, h2⟩ | ⟨-, h1, h2⟩ | ⟨-, h1, h2⟩
    · rcases b with - | ⟨x1, b⟩ <;> simp_all
    · cases h1
    · rcases b with - | ⟨x1, - | ⟨x2, b⟩⟩ <;> simp_all
    · cases h1

example : KeysOk [(['B'], ['4'])] :=
  ⟨fun e he => by
    have : e = (['B'], ['4']) := by simpa using he
    rw [this]
    exact entry_one (by decide) (by decide) (by decide) (by decide) (by decide), by decide⟩

/-! The findings, with a command line that has an option with a value -/

example : generate (["[Desktop Entry]", "Exec=app --mode=fast"].map String.toList) [] [] =
    some (["[Desktop Entry]", "Exec=app --mode", ""].map String.toList) := by decide +kernel
example : generate (["[Desktop Entry]", "", "[Desktop Action New]", "Name=New"].map String.toList) [("Name".toList, "App".toList)] [] =
    some (["[Desktop Entry]", "[Desktop Action New]=undefined", "Name=App", ""].map String.toList) := by decide +kernel
example : generate (["[Desktop Entry]", "Name = x"].map String.toList) [("Name".toList, "App".toList)] [] =
    some (["[Desktop Entry]", "Name = x", "Name=App", ""].map String.toList) := by decide +kernel
example : generate (["Name=x"].map String.toList) [] defaultKeys = none := by decide +kernel

end Verif.Desktop
