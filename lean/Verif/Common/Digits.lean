/-!
Decimal numbers as character lists: `QString::number` / `QByteArray::number` on non-negative
values and the digit part of `QString::toInt`.  Shared by several models.
-/

namespace Verif.Digits

/-- `QString::number(n)` for `n ≥ 0`: decimal digits without leading zeros. -/
def number (n : Nat) : List Char := Nat.toDigits 10 n

/-- Value of a digit string. -/
def value (cs : List Char) : Nat := Nat.ofDigitChars 10 cs 0

theorem value_number (n : Nat) : value (number n) = n := by
  simp [value, number]

theorem number_isDigit (n : Nat) : ∀ c ∈ number n, c.isDigit = true := by
  intro c hc
  exact Nat.isDigit_of_mem_toDigits (by decide) (by decide) hc

theorem number_ne_nil (n : Nat) : number n ≠ [] := by
  have := Nat.length_toDigits_pos (b := 10) (n := n)
  intro h
  simp [number] at h

/-- Splits off the longest prefix of decimal digits. -/
def spanDigits : List Char → List Char × List Char
  | [] => ([], [])
  | c :: cs => if c.isDigit then (c :: (spanDigits cs).1, (spanDigits cs).2) else ([], c :: cs)

theorem spanDigits_append (ds rest : List Char) (hd : ∀ c ∈ ds, c.isDigit = true)
    (hr : ∀ c cs, rest = c :: cs → c.isDigit = false) : spanDigits (ds ++ rest) = (ds, rest) := by
  induction ds with
  | nil =>
    cases rest with
    | nil => rfl
    | cons c cs => simp [spanDigits, hr c cs rfl]
  | cons d ds ih =>
    have h1 : d.isDigit = true := hd d (by simp)
    have h2 := ih (fun c hc => hd c (by simp [hc]))
    simp [spanDigits, h1, h2]

theorem spanDigits_number (n : Nat) (rest : List Char)
    (hr : ∀ c cs, rest = c :: cs → c.isDigit = false) :
    spanDigits (number n ++ rest) = (number n, rest) :=
  spanDigits_append _ _ (number_isDigit n) hr

theorem spanDigits_eq (s : List Char) : (spanDigits s).1 ++ (spanDigits s).2 = s := by
  induction s with
  | nil => rfl
  | cons c cs ih => simp only [spanDigits]; split <;> simp [ih]

theorem spanDigits_fst (s : List Char) : ∀ c ∈ (spanDigits s).1, c.isDigit = true := by
  induction s with
  | nil => simp [spanDigits]
  | cons c cs ih =>
    simp only [spanDigits]; split
    · rename_i h; intro d hd; rcases List.mem_cons.mp hd with rfl | hd
      · exact h
      · exact ih d hd
    · simp

theorem spanDigits_snd (s : List Char) :
    ∀ c cs, (spanDigits s).2 = c :: cs → c.isDigit = false := by
  induction s with
  | nil => simp [spanDigits]
  | cons c cs ih =>
    simp only [spanDigits]; split
    · exact ih
    · rename_i h; intro d ds hd; simp at hd; rw [← hd.1]; simpa using h

end Verif.Digits
