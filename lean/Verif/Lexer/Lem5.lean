import Verif.Lexer.Lem4
/-!
# The kinds of tokens and how they are written
-/
namespace Verif.Lexer

/-- A token that is not a symbol. -/
def Plain : Body → Prop
  | .tok k _ _ => spelling k = none ∧ k ≠ .eof
  | _ => True

theorem strLoop_plain (u : Uni) (q : Char) : ∀ n multi acc s,
    Plain (strLoop u q n multi acc s) := by
  intro n
  induction n with
  | zero => intro _ _ _; trivial
  | succ n ih =>
    intro multi acc s
    unfold strLoop
    split
    · exact ⟨rfl, by decide⟩
    · split
      · exact ⟨rfl, by decide⟩
      split
      · exact ih _ _ _
      split
      · cases multi <;> exact ⟨rfl, by decide⟩
      split
      · split
        · trivial
        · exact ih _ _ _
      · exact ih _ _ _

theorem scanString_plain (u : Uni) (q : Char) (s : Str) : Plain (scanString u q s) := by
  unfold scanString
  simp only
  split
  · exact ⟨rfl, by decide⟩
  · exact strLoop_plain u q _ _ _ _

theorem decimal_plain (u : Uni) (a b : Str) : Plain (decimal u a b) := by
  unfold decimal; split <;> exact ⟨rfl, by decide⟩

theorem scanNumber_plain (u : Uni) (ch : Char) (s : Str) : Plain (scanNumber u ch s) := by
  unfold scanNumber
  simp only
  split
  · exact ⟨rfl, by decide⟩
  split
  · exact ⟨rfl, by decide⟩
  split
  · exact decimal_plain u _ _
  · split
    · exact ⟨rfl, by decide⟩
    · exact decimal_plain u _ _

theorem endOfWord_plain (qml esc : Bool) (t r : Str) :
    Plain (identLoop.endOfWord qml esc t r) := by
  unfold identLoop.endOfWord
  split
  · exact ⟨rfl, by decide⟩
  · split
    · exact ⟨rfl, by decide⟩
    · exact ⟨rfl, fun h => by cases h⟩

theorem identLoop_plain (u : Uni) (qml : Bool) : ∀ esc t s, Plain (identLoop u qml esc t s) := by
  intro esc t s
  fun_induction identLoop u qml esc t s
  case case1 => trivial
  case case2 => rename_i ih; exact ih
  case case3 => exact ⟨rfl, by decide⟩
  case case4 => exact ⟨rfl, by decide⟩
  case case5 => exact endOfWord_plain qml _ _ _
  case case6 => rename_i ih; exact ih
  case case7 => exact endOfWord_plain qml _ _ _

theorem scanWord_plain (u : Uni) (qml : Bool) (ch : Char) (s : Str) :
    Plain (scanWord u qml ch s) := by
  unfold scanWord
  split
  · split
    · exact identLoop_plain u qml _ _ _
    · exact ⟨rfl, by decide⟩
  · exact identLoop_plain u qml _ _ _

theorem plain_none {b : Body} (h : Plain b) {k : Kind} {t : Option Str} {r : Str} {w : String}
    (hb : b = .tok k t r) (hk : spelling k = some w) : False := by
  rw [hb] at h
  have := h.1
  rw [hk] at this
  cases this

theorem plain_eof {b : Body} (h : Plain b) {t : Option Str} {r : Str} (hb : b = .tok .eof t r) :
    False := by
  rw [hb] at h
  exact h.2 rfl

theorem blockComment_open : ∀ s r, blockComment s = (false, r) → (r = [] ∨ r.head? = some nul) ∧
    ∃ b, s = b ++ r ∧ ∀ p q, b ≠ p ++ '*' :: '/' :: q := by
  intro s
  fun_induction blockComment s
  case case1 =>
    intro r h; cases h
    exact ⟨Or.inl rfl, [], rfl, fun p q h => by simp at h⟩
  case case2 =>
    intro r h; cases h
    exact ⟨Or.inr rfl, [], rfl, fun p q h => by simp at h⟩
  case case3 => intro r h; cases h
  case case4 r' hne hnul ih =>
    intro r h
    obtain ⟨h1, b, h2, h3⟩ := ih r h
    refine ⟨h1, '*' :: b, by simp [h2], ?_⟩
    intro p q he
    cases p with
    | nil =>
      simp at he
      rw [he] at h2
      exact hne (q ++ r) (by simpa using h2)
    | cons x p =>
      simp at he
      exact h3 p q he.2
  case case5 c r' _ hc ih =>
    intro r h
    obtain ⟨h1, b, h2, h3⟩ := ih r h
    refine ⟨h1, c :: b, by simp [h2], ?_⟩
    intro p q he
    cases p with
    | nil => simp at he; exact hc he.1
    | cons x p => simp at he; exact h3 p q he.2

/-- All symbols. -/
def symbols : List String :=
  ["~", "}", "||", "|=", "|", "{", "^=", "^", "]", "[", "?", ">>>=", ">>>", ">>=", ">>", ">=", ">",
   "===", "==", "=", "<=", "<<=", "<<", "<", ";", ":", "/=", "/", ".", "-=", "--", "-", ",", "+=",
   "++", "+", "*=", "*", ")", "(", "&=", "&&", "&", "%=", "%", "!==", "!=", "!"]

theorem spelling_mem (k : Kind) (w : String) (h : spelling k = some w) : w ∈ symbols := by
  cases k <;> first | cases h; done | (cases h; decide)

theorem longest_of_symbols (s : Str) (n : Nat)
    (h : ∀ w ∈ symbols, w.toList <+: s → w.length ≤ n) :
    ∀ k w, spelling k = some w → w.toList <+: s → w.length ≤ n :=
  fun k w hk => h w (spelling_mem k w hk)

theorem prefix_cons (a : Char) (p s : Str) : a :: p <+: s ↔ ∃ r, s = a :: r ∧ p <+: r := by
  cases s with
  | nil => simp
  | cons c r =>
    rw [List.cons_prefix_cons]
    constructor
    · rintro ⟨rfl, h⟩; exact ⟨r, rfl, h⟩
    · rintro ⟨r', h, h1⟩; cases h; exact ⟨rfl, h1⟩

set_option maxHeartbeats 4000000 in
theorem body_symbol (u : Uni) (qml : Bool) (ch : Char) (s : Str) (k : Kind) (text : Option Str)
    (rest : Str) (w : String) (h : body u qml ch s = .tok k text rest) (hk : spelling k = some w) :
    text = none ∧
    ((ch :: s = w.toList ++ rest ∧
      ∀ k' w', spelling k' = some w' → w'.toList <+: ch :: s → w'.length ≤ w.length) ∨
     (k = .divide ∧ (rest = [] ∨ rest.head? = some nul) ∧
      ∃ b, ch :: s = '/' :: '*' :: b ++ rest ∧ ∀ p q, b ≠ p ++ '*' :: '/' :: q)) := by
  have hstr : ∀ q, scanString u q s ≠ .tok k text rest :=
    fun q hq => plain_none (scanString_plain u q s) hq hk
  have hdec : ∀ a b, decimal u a b ≠ .tok k text rest :=
    fun a b hq => plain_none (decimal_plain u a b) hq hk
  have hnum : scanNumber u ch s ≠ .tok k text rest :=
    fun hq => plain_none (scanNumber_plain u ch s) hq hk
  have hw : scanWord u qml ch s ≠ .tok k text rest :=
    fun hq => plain_none (scanWord_plain u qml ch s) hq hk
  unfold body at h
  simp only at h
  split at h <;> (repeat' split at h) <;>
    first
    | exact absurd h (hstr _)
    | exact absurd h hnum
    | exact absurd h hw
    | exact absurd h (hdec _ _)
    | (cases h; cases hk; done)
    | cases h; done
    | (cases h; cases hk
       refine ⟨rfl, Or.inl ⟨rfl, longest_of_symbols _ _ ?_⟩⟩
       simp [symbols, String.length, List.cons_prefix_cons, prefix_cons] <;> grind)
    | (rename_i r' he
       cases h
       obtain ⟨h1, b, h2, h3⟩ := blockComment_open _ _ he
       exact ⟨rfl, Or.inr ⟨rfl, h1, b, by rw [h2]; rfl, h3⟩⟩)

end Verif.Lexer
