import Verif.Lexer.Lem5
/-!
# Words
-/
namespace Verif.Lexer

/-! ### The trees -/

/-- The words a tree accepts; `known`: the characters that are known. `none`: a word is accepted
although some of its characters are unknown. -/
def collect (qml : Bool) (known : List (Option Char)) : Tree → Option (List (Str × Kw))
  | .ident => some []
  | .ret k => if known.all Option.isSome then some [(known.filterMap id, k)] else none
  | .retMode a b =>
    if known.all Option.isSome then some [(known.filterMap id, if qml then a else b)] else none
  | .test q i c yes no =>
    if q && !qml then collect qml known no
    else if known.length ≤ i then none
    else
      match collect qml (known.set i (some c)) yes, collect qml known no with
      | some a, some b => some (a ++ b)
      | _, _ => none

/-- The text has the known characters. -/
def Fits (s : Str) (known : List (Option Char)) : Prop :=
  s.length = known.length ∧ ∀ (i : Nat) (c : Char), known[i]? = some (some c) → s[i]? = some c

theorem fits_all : ∀ (known : List (Option Char)) (s : Str), Fits s known →
    known.all Option.isSome = true → known.filterMap id = s := by
  intro known
  induction known with
  | nil => intro s h _; cases s with
    | nil => rfl
    | cons c s => simp [Fits] at h
  | cons k known ih =>
    intro s h ha
    cases s with
    | nil => simp [Fits] at h
    | cons c s =>
      simp only [List.all_cons, Bool.and_eq_true] at ha
      obtain ⟨x, rfl⟩ := Option.isSome_iff_exists.1 ha.1
      have hx := h.2 0 x rfl
      simp at hx
      subst hx
      have he : (some c :: known).filterMap id = c :: known.filterMap id := by simp
      rw [he]
      congr 1
      refine ih s ⟨by simpa using h.1, fun i c hc => ?_⟩ ha.2
      have := h.2 (i + 1) c (by simpa using hc)
      simpa using this

theorem fits_set (s : Str) (known : List (Option Char)) (i : Nat) (c : Char) (h : Fits s known)
    (hc : s[i]? = some c) : Fits s (known.set i (some c)) := by
  refine ⟨by simp [h.1], fun j d hd => ?_⟩
  rw [List.getElem?_set] at hd
  split at hd
  · rename_i hij
    subst hij
    split at hd
    · simp at hd; rw [← hd]; exact hc
    · cases hd
  · exact h.2 j d hd

theorem evalTree_mem (qml : Bool) (s : Str) (k : Kw) : ∀ (t : Tree) (known : List (Option Char))
    (ws : List (Str × Kw)), collect qml known t = some ws → Fits s known →
    evalTree qml s t = some k → (s, k) ∈ ws := by
  intro t
  induction t with
  | ident => intro known ws _ _ h; cases h
  | ret a =>
    intro known ws hc hf h
    simp only [collect] at hc
    split at hc
    · rename_i ha
      cases hc; cases h
      rw [fits_all known s hf ha]; simp
    · cases hc
  | retMode a b =>
    intro known ws hc hf h
    simp only [collect] at hc
    split at hc
    · rename_i ha
      cases hc; cases h
      rw [fits_all known s hf ha]; simp
    · cases hc
  | test q i c yes no ihy ihn =>
    intro known ws hc hf h
    simp only [collect] at hc
    simp only [evalTree] at h
    split at hc
    · rename_i hq
      rw [if_neg (by simp at hq; simp [hq])] at h
      exact ihn known ws hc hf h
    · split at hc
      · cases hc
      rename_i hi
      split at hc
      · rename_i a b h1 h2
        cases hc
        split at h
        · rename_i hcond
          have hlt : i < s.length := by rw [hf.1]; omega
          have hsi : s[i]? = some c := by
            have h5 := hcond.2
            rw [List.getD_eq_getElem?_getD, List.getElem?_eq_getElem hlt] at h5
            rw [List.getElem?_eq_getElem hlt]
            simpa using h5
          exact List.mem_append_left _ (ihy _ _ h1 (fits_set s known i c hf hsi) h)
        · exact List.mem_append_right _ (ihn _ _ h2 hf h)
      · cases hc

/-- The table as lists of characters. -/
def table (qml : Bool) : List (Str × Kw) := (keywords qml).map fun e => (e.1.toList, e.2)

theorem fits_none (s : Str) (n : Nat) (h : s.length = n) : Fits s (List.replicate n none) := by
  refine ⟨by simp [h], fun i c hc => ?_⟩
  rw [List.getElem?_replicate] at hc
  split at hc <;> simp at hc

theorem tree_table (qml : Bool) (n : Nat) (t : Tree) (s : Str) (k : Kw) (hn : s.length = n)
    (hc : (match collect qml (List.replicate n none) t with
      | some ws => ws.all (fun e => (table qml).contains e)
      | none => false) = true)
    (h : evalTree qml s t = some k) : (s, k) ∈ table qml := by
  split at hc
  · rename_i ws hw
    have := evalTree_mem qml s k t _ ws hw (fits_none s n hn) h
    have h2 := List.all_eq_true.1 hc _ this
    exact List.contains_iff_mem.1 h2
  · cases hc

set_option maxRecDepth 4000 in
theorem classify_sound (qml : Bool) (s : Str) (k : Kw) (h : classify qml s = some k) :
    (s, k) ∈ table qml := by
  unfold classify at h
  split at h
  all_goals first | cases h; done | skip
  all_goals rename_i hn
  all_goals (cases qml <;> exact tree_table _ _ _ _ _ hn (by decide +kernel) h)

theorem classify_complete (qml : Bool) (s : Str) (k : Kw) (h : (s, k) ∈ table qml) :
    classify qml s = some k := by
  have : ∀ qml, (table qml).all (fun e => decide (classify qml e.1 = some e.2)) = true := by
    intro qml; cases qml <;> decide +kernel
  have h2 := List.all_eq_true.1 (this qml) _ h
  simpa using h2

theorem classify_iff (qml : Bool) (s : Str) (k : Kw) :
    classify qml s = some k ↔ ∃ w, (w, k) ∈ keywords qml ∧ w.toList = s := by
  constructor
  · intro h
    have := classify_sound qml s k h
    simp only [table, List.mem_map] at this
    obtain ⟨⟨w, k'⟩, h1, h2⟩ := this
    cases h2
    exact ⟨w, h1, rfl⟩
  · rintro ⟨w, h, rfl⟩
    exact classify_complete qml _ k (List.mem_map.2 ⟨(w, k), h, rfl⟩)

/-! ### Words in the text -/

/-- The kind of a word. -/
def kindOf (qml : Bool) (w : Str) : Kind :=
  match classify qml w with
  | none => .identifier
  | some k => .word k

theorem identLoop_esc (u : Uni) (qml : Bool) : ∀ esc t s k rest, esc = true →
    identLoop u qml esc t s = .tok k none rest → k = .error := by
  intro esc t s
  fun_induction identLoop u qml esc t s
  case case1 => intro k rest _ h; cases h
  case case2 => rename_i ih; intro k rest _ h; exact ih k rest rfl h
  case case3 => intro k rest _ h; cases h; rfl
  case case4 => intro k rest _ h; cases h; rfl
  case case5 =>
    intro k rest he h
    unfold identLoop.endOfWord at h
    rw [if_pos he] at h; cases h
  case case6 => rename_i ih; exact ih
  case case7 =>
    intro k rest he h
    unfold identLoop.endOfWord at h
    rw [if_pos he] at h; cases h

theorem endOfWord_false (qml : Bool) (t r : Str) :
    identLoop.endOfWord qml false t r = .tok (kindOf qml t) none r := by
  unfold identLoop.endOfWord kindOf
  simp only [Bool.false_eq_true, if_false]
  split <;> simp_all

theorem identLoop_word (u : Uni) (hu : UniOk u) (qml : Bool) : ∀ esc t s k rest, esc = false →
    k ≠ .error → identLoop u qml esc t s = .tok k none rest →
    ∃ w, s = w ++ rest ∧ (∀ c ∈ w, wordChar u c) ∧ ¬ wordChar u (hd rest) ∧
      k = kindOf qml (t ++ w) := by
  intro esc t s
  fun_induction identLoop u qml esc t s
  case case1 => intro k rest _ _ h; cases h
  case case2 =>
    intro k rest _ hk h
    exact absurd (identLoop_esc u qml _ _ _ _ _ rfl h) hk
  case case3 => intro k rest _ hk h; cases h; exact absurd rfl hk
  case case4 => intro k rest _ hk h; cases h; exact absurd rfl hk
  case case5 =>
    intro k rest he _ h
    subst he
    rw [endOfWord_false] at h
    cases h
    refine ⟨[], rfl, by simp, ?_, by simp⟩
    intro hw
    rcases hw with h | h | h
    · rw [show hd [] = nul from rfl, hu.nulNoWord] at h; cases h
    · exact absurd h (by decide)
    · exact absurd h (by decide)
  case case6 ih =>
    rename_i c r _ _ hc
    intro k rest he hk h
    obtain ⟨w, h1, h2, h3, h4⟩ := ih k rest he hk h
    refine ⟨c :: w, by simp [h1], ?_, h3, by simpa using h4⟩
    intro d hd
    rcases List.mem_cons.1 hd with rfl | hd
    · simp [wordChar]; simpa [or_assoc] using hc
    · exact h2 d hd
  case case7 =>
    rename_i c r _ _ hc
    intro k rest he _ h
    subst he
    rw [endOfWord_false] at h
    cases h
    refine ⟨[], rfl, by simp, ?_, by simp⟩
    intro hw
    apply hc
    simp [wordChar, hd] at hw
    simpa [or_assoc] using hw

/-- The kinds of words. -/
def isWord : Kind → Bool
  | .identifier => true
  | .word _ => true
  | _ => false

/-- Not a word. -/
def NoWord : Body → Prop
  | .tok k _ _ => isWord k = false
  | _ => True

theorem strLoop_noWord (u : Uni) (q : Char) : ∀ n multi acc s,
    NoWord (strLoop u q n multi acc s) := by
  intro n
  induction n with
  | zero => intro _ _ _; trivial
  | succ n ih =>
    intro multi acc s
    unfold strLoop
    split
    · rfl
    · split
      · rfl
      split
      · exact ih _ _ _
      split
      · cases multi <;> rfl
      split
      · split
        · trivial
        · exact ih _ _ _
      · exact ih _ _ _

theorem scanString_noWord (u : Uni) (q : Char) (s : Str) : NoWord (scanString u q s) := by
  unfold scanString
  simp only
  split
  · rfl
  · exact strLoop_noWord u q _ _ _ _

theorem decimal_noWord (u : Uni) (a b : Str) : NoWord (decimal u a b) := by
  unfold decimal; split <;> rfl

theorem scanNumber_noWord (u : Uni) (ch : Char) (s : Str) : NoWord (scanNumber u ch s) := by
  unfold scanNumber
  simp only
  split
  · rfl
  split
  · rfl
  split
  · exact decimal_noWord u _ _
  · split
    · rfl
    · exact decimal_noWord u _ _

theorem noWord_word {b : Body} (h : NoWord b) {k : Kind} {t : Option Str} {r : Str}
    (hb : b = .tok k t r) (hk : isWord k = true) : False := by
  rw [hb] at h
  rw [show isWord k = false from h] at hk
  cases hk

theorem body_word (u : Uni) (hu : UniOk u) (qml : Bool) (ch : Char) (s : Str) (k : Kind) (rest : Str)
    (hk : isWord k = true) (h : body u qml ch s = .tok k none rest) :
    (u.isLetter ch = true ∨ ch = '$' ∨ ch = '_') ∧ ∃ w, s = w ++ rest ∧ (∀ c ∈ w, wordChar u c) ∧
      ¬ wordChar u (hd rest) ∧ k = kindOf qml (ch :: w) := by
  have hstr : ∀ q, scanString u q s ≠ .tok k none rest :=
    fun q hq => noWord_word (scanString_noWord u q s) hq hk
  have hdec : ∀ a b, decimal u a b ≠ .tok k none rest :=
    fun a b hq => noWord_word (decimal_noWord u a b) hq hk
  have hnum : scanNumber u ch s ≠ .tok k none rest :=
    fun hq => noWord_word (scanNumber_noWord u ch s) hq hk
  have hne : k ≠ .error := by rintro rfl; cases hk
  have hw : scanWord u qml ch s = .tok k none rest → u.isLetter ch || ch == '$' || ch == '_' ||
      (ch == '\\' && hd s == 'u') → (u.isLetter ch = true ∨ ch = '$' ∨ ch = '_') ∧
      ∃ w, s = w ++ rest ∧ (∀ c ∈ w, wordChar u c) ∧
        ¬ wordChar u (hd rest) ∧ k = kindOf qml (ch :: w) := by
    intro h hc
    unfold scanWord at h
    split at h
    · split at h
      · exact absurd (identLoop_esc u qml _ _ _ _ _ rfl h) hne
      · cases h; exact absurd rfl hne
    · rename_i hb
      refine ⟨?_, ?_⟩
      · simp [hb] at hc
        simpa [or_assoc] using hc
      · exact identLoop_word u hu qml _ _ _ _ _ rfl hne h
  unfold body at h
  simp only at h
  split at h <;> (repeat' split at h) <;>
    first
    | exact absurd h (hstr _)
    | exact absurd h hnum
    | exact hw h (by assumption)
    | exact absurd h (hdec _ _)
    | (cases h; cases hk; done)
    | (cases h; done)

/-- The lexer keeps the text of keywords as it is written. -/
theorem body_word_text (u : Uni) (qml : Bool) (ch : Char) (s : Str) (kw : Kw) (x rest : Str) :
    body u qml ch s ≠ .tok (.word kw) (some x) rest := by
  intro h
  have hstr : ∀ q, scanString u q s ≠ .tok (.word kw) (some x) rest :=
    fun q hq => noWord_word (scanString_noWord u q s) hq rfl
  have hdec : ∀ a b, decimal u a b ≠ .tok (.word kw) (some x) rest :=
    fun a b hq => noWord_word (decimal_noWord u a b) hq rfl
  have hnum : scanNumber u ch s ≠ .tok (.word kw) (some x) rest :=
    fun hq => noWord_word (scanNumber_noWord u ch s) hq rfl
  have hend : ∀ esc t r, identLoop.endOfWord qml esc t r ≠ .tok (.word kw) (some x) rest := by
    intro esc t r h
    unfold identLoop.endOfWord at h
    split at h
    · cases h
    · split at h <;> cases h
  have hid : ∀ esc t s, identLoop u qml esc t s ≠ .tok (.word kw) (some x) rest := by
    intro esc t s
    fun_induction identLoop u qml esc t s
    case case1 => intro h; cases h
    case case2 => rename_i ih; exact ih
    case case3 => intro h; cases h
    case case4 => intro h; cases h
    case case5 => exact hend _ _ _
    case case6 => rename_i ih; exact ih
    case case7 => exact hend _ _ _
  have hw : scanWord u qml ch s ≠ .tok (.word kw) (some x) rest := by
    intro h
    unfold scanWord at h
    split at h
    · split at h
      · exact hid _ _ _ h
      · cases h
    · exact hid _ _ _ h
  unfold body at h
  simp only at h
  split at h <;> (repeat' split at h) <;>
    first
    | exact absurd h (hstr _)
    | exact absurd h hnum
    | exact absurd h hw
    | exact absurd h (hdec _ _)
    | (cases h; done)

end Verif.Lexer
