import Verif.Literal.Spec
/-!
# C38: literals evaluate to the original value
-/
namespace Verif.Literal

theorem parseStr_escape (s rest : Str) (h : OneLine s) :
    parseStr (escape s ++ '"' :: rest) = some (s, rest) := by
  induction s with
  | nil => rw [escape, List.nil_append]; unfold parseStr; rw [if_pos rfl]
  | cons c s ih =>
    have hc : isLineEnd c = false := h c List.mem_cons_self
    have ih := ih (fun d hd => h d (List.mem_cons_of_mem _ hd))
    unfold escape
    by_cases h1 : c = '\\' ∨ c = '"'
    · rw [if_pos h1, List.cons_append, List.cons_append]
      unfold parseStr
      rw [if_neg (by decide), if_neg (by decide), if_pos rfl]
      have hu : unescape c = some [c] := by
        rcases h1 with rfl | rfl <;> decide
      simp only [hu, ih, Option.bind_eq_bind, Option.bind_some]
      rfl
    · rw [if_neg h1, List.cons_append]
      unfold parseStr
      rw [if_neg (fun hh => h1 (Or.inr hh)), if_neg (by simp [hc]), if_neg (fun hh => h1 (Or.inl hh))]
      simp only [ih, Option.bind_eq_bind, Option.bind_some]

/-- What follows an expression within a literal. -/
def Ends (rest : Str) : Prop := rest = [] ∨ rest.head? = some ',' ∨ rest.head? = some ']' ∨
  rest.head? = some '}'

theorem ends_head {rest : Str} (h : Ends rest) : ∀ c cs, rest = c :: cs →
    c.isDigit = false ∧ c.isAlpha = false ∧ isSpace c = false := by
  intro c cs hr
  subst hr
  rcases h with h | h | h | h
  · cases h
  all_goals (simp only [List.head?_cons, Option.some.injEq] at h; subst h; exact ⟨by decide, by decide, by decide⟩)

theorem toDigits_head (n : Nat) : (Digits.number n).head? = some '0' → n = 0 := by
  induction n using Nat.strongRecOn with
  | ind n ih =>
    intro h
    unfold Digits.number at h ih
    by_cases hn : n < 10
    · rw [Nat.toDigits_of_lt_base hn] at h
      have : ∀ m, m < 10 → some m.digitChar = some '0' → m = 0 := by decide
      exact this n hn (by simpa using h)
    · rw [Nat.toDigits_of_base_le (by decide) (by omega)] at h
      have hne : Nat.toDigits 10 (n / 10) ≠ [] := Nat.toDigits_ne_nil
      rw [List.head?_append, List.head?_eq_some_head hne, show ∀ (x : Char) (y : Option Char), (some x).or y = some x from fun _ _ => rfl, ← List.head?_eq_some_head hne] at h
      have := ih (n / 10) (by omega) h
      omega

theorem parseNat_number_any (n : Nat) (rest : Str) (h : Ends rest) :
    parseNat (Digits.number n ++ rest) = some (toDouble n, rest) := by
  unfold parseNat
  rw [Digits.spanDigits_number n rest (fun c cs hr => (ends_head h c cs hr).1)]
  simp only
  rw [if_neg (Digits.number_ne_nil n), if_neg, Digits.value_number]
  · rintro ⟨h1, h2⟩
    have := toDigits_head n h1
    subst this
    exact h2 (by decide)

theorem parseNat_number (n : Nat) (hn : n ≤ 2 ^ 53) (rest : Str) (h : Ends rest) :
    parseNat (Digits.number n ++ rest) = some (n, rest) := by
  rw [parseNat_number_any n rest h]
  unfold toDouble
  rw [if_pos hn]

theorem skip_of_head {s : Str} {c : Char} (h : s.head? = some c) (hc : isSpace c = false) : skip s = s := by
  cases s with
  | nil => rfl
  | cons d s =>
    simp only [List.head?_cons, Option.some.injEq] at h
    subst h
    simp [skip, hc]

theorem skip_ends {s : Str} (h : Ends s) : skip s = s := by
  cases s with
  | nil => rfl
  | cons c s => exact skip_of_head rfl (ends_head h c s rfl).2.2

theorem word_append (w rest : Str) (hw : ∀ c ∈ w, c.isAlpha = true) (h : Ends rest) :
    word (w ++ rest) = (w, rest) := by
  induction w with
  | nil =>
    cases rest with
    | nil => rfl
    | cons c cs =>
      have := (ends_head h c cs rfl).2.1
      simp [word, this]
  | cons c w ih =>
    have hc := hw c List.mem_cons_self
    have := ih (fun d hd => hw d (List.mem_cons_of_mem _ hd))
    simp only [word, Prod.mk.injEq] at this ⊢
    rw [List.cons_append, List.takeWhile_cons, List.dropWhile_cons]
    simp [hc, this.1, this.2]

/-- The text of items, after the first one. -/
def tailItems : List Var → Str
  | [] => []
  | v :: l => ", ".toList ++ lit v ++ tailItems l

theorem lit_ne_nil (v : Var) : lit v ≠ [] := by
  cases v with
  | int n =>
    simp only [lit, litInt]
    split
    · simp
    · exact Digits.number_ne_nil _
  | bool b => cases b <;> simp [lit, litBool]
  | _ => simp [lit, litStr]

theorem litItems_eq : ∀ (l : List Var) (res : Str), res ≠ [] → litItems res l = res ++ tailItems l
  | [], res, _ => by simp [litItems, tailItems]
  | v :: l, res, h => by
    rw [litItems, if_pos (by simpa using h), litItems_eq l _ (by simp), tailItems]
    simp only [List.append_assoc]

theorem litItems_cons (v : Var) (l : List Var) : litItems [] (v :: l) = lit v ++ tailItems l := by
  rw [litItems, if_neg (by simp), List.nil_append, litItems_eq l _ (lit_ne_nil v)]

/-- Literals do not begin with white space or a closing bracket. -/
theorem lit_head (v : Var) (h : Good v) : ∃ c, (lit v).head? = some c ∧ isSpace c = false ∧ c ≠ ']' := by
  cases v with
  | invalid => exact ⟨'u', by rw [lit]; rfl, by decide, by decide⟩
  | bool b =>
    cases b
    · exact ⟨'f', by rw [lit]; rfl, by decide, by decide⟩
    · exact ⟨'t', by rw [lit]; rfl, by decide, by decide⟩
  | int n =>
    simp only [lit, litInt]
    split
    · exact ⟨'-', rfl, by decide, by decide⟩
    · obtain ⟨c, r, hc⟩ := List.exists_cons_of_ne_nil (Digits.number_ne_nil n.natAbs)
      have hd := Digits.number_isDigit n.natAbs c (by rw [hc]; simp)
      refine ⟨c, by rw [hc]; rfl, ?_, ?_⟩
      · cases hs : isSpace c with
        | false => rfl
        | true =>
          simp only [isSpace, isLineEnd, Bool.or_eq_true, decide_eq_true_eq] at hs
          rcases hs with (rfl | rfl) | rfl | rfl <;> exact absurd hd (by decide)
      · rintro rfl
        exact absurd hd (by decide)
  | str s => exact ⟨'"', by rw [lit]; rfl, by decide, by decide⟩
  | list l => exact ⟨'[', by rw [lit]; rfl, by decide, by decide⟩
  | map l => exact ⟨'{', by rw [lit]; rfl, by decide, by decide⟩
  | double t => exact absurd h (by simp [Good])
  | other t => exact absurd h (by simp [Good])

theorem head?_append' {s : Str} {c : Char} (h : s.head? = some c) (t : Str) :
    (s ++ t).head? = some c := by
  cases s with
  | nil => cases h
  | cons d s => exact h

theorem put_new (o : List (Str × JsVal)) (k : Str) (v : JsVal) (h1 : k ≠ "__proto__".toList)
    (h2 : k ∉ o.map (·.1)) : put o k v = o ++ [(k, v)] := by
  unfold put
  rw [if_neg h1, if_neg]
  intro h
  obtain ⟨e, he, hk⟩ := List.any_eq_true.mp h
  exact h2 (List.mem_map.mpr ⟨e, he, by simpa using hk⟩)

theorem ends_tailItems (l : List Var) (rest : Str) : Ends (tailItems l ++ ']' :: rest) := by
  cases l with
  | nil => exact Or.inr (Or.inr (Or.inl rfl))
  | cons v l => exact Or.inr (Or.inl rfl)

theorem ends_entries (l : List (Str × Var)) (rest : Str) :
    Ends (litEntries false l ++ '}' :: rest) := by
  cases l with
  | nil => exact Or.inr (Or.inr (Or.inr (by rw [litEntries]; rfl)))
  | cons e l => exact Or.inr (Or.inl (by rw [litEntries]; rfl))

theorem parse_skip (n : Nat) (s : Str) : parse n (' ' :: s) = parse n s := by
  cases n with
  | zero => simp [parse]
  | succ n => unfold parse; rw [show skip (' ' :: s) = skip s from rfl]

theorem parse_digit {n : Nat} {s : Str} {c : Char} {r : Str} (hs : s = c :: r) (hd : c.isDigit = true) :
    parse (n + 1) s = (parseNat s).map (fun p => (.num p.1, p.2)) := by
  have h1 : isSpace c = false := by
    cases hs : isSpace c with
    | false => rfl
    | true =>
      simp only [isSpace, isLineEnd, Bool.or_eq_true, decide_eq_true_eq] at hs
      rcases hs with (rfl | rfl) | rfl | rfl <;> exact absurd hd (by decide)
  have hne : ∀ d : Char, d.isDigit = false → c ≠ d := by
    rintro d h rfl
    rw [h] at hd
    cases hd
  subst hs
  unfold parse
  rw [skip_of_head rfl h1]
  simp only
  rw [if_neg (hne _ (by decide)), if_neg (hne _ (by decide)), if_neg (hne _ (by decide)),
    if_neg (hne _ (by decide)), if_pos hd]

theorem parse_word {n : Nat} {w rest : Str} {c : Char} {r : Str} (hw : w = c :: r)
    (ha : ∀ c ∈ w, c.isAlpha = true) (he : Ends rest) :
    parse (n + 1) (w ++ rest) =
      if w = "true".toList then some (.bool true, rest)
      else if w = "false".toList then some (.bool false, rest)
      else if w = "undefined".toList then some (.undefined, rest) else none := by
  have hd := ha c (by rw [hw]; simp)
  have h1 : isSpace c = false := by
    cases hs : isSpace c with
    | false => rfl
    | true =>
      simp only [isSpace, isLineEnd, Bool.or_eq_true, decide_eq_true_eq] at hs
      rcases hs with (rfl | rfl) | rfl | rfl <;> exact absurd hd (by decide)
  have hne : ∀ d : Char, d.isAlpha = false → c ≠ d := by
    rintro d h rfl
    rw [h] at hd
    cases hd
  have hnd : ¬ c.isDigit = true := by
    intro h
    simp only [Char.isDigit, Char.isAlpha, Char.isUpper, Char.isLower, Bool.and_eq_true,
      Bool.or_eq_true, decide_eq_true_eq, UInt32.le_iff_toNat_le, ge_iff_le] at h hd
    simp only [show ('0' : Char).val.toNat = 48 from rfl, show ('9' : Char).val.toNat = 57 from rfl,
      show ('A' : Char).val.toNat = 65 from rfl, show ('Z' : Char).val.toNat = 90 from rfl,
      show ('a' : Char).val.toNat = 97 from rfl, show ('z' : Char).val.toNat = 122 from rfl] at h hd
    omega
  have hcons : w ++ rest = c :: (r ++ rest) := by rw [hw]; rfl
  have hword := word_append w rest ha he
  rw [hcons] at hword ⊢
  unfold parse
  rw [skip_of_head rfl h1]
  simp only
  rw [if_neg (hne _ (by decide)), if_neg (hne _ (by decide)), if_neg (hne _ (by decide)),
    if_neg (hne _ (by decide)), if_neg hnd, hword]

mutual
theorem parse_lit : ∀ (v : Var) (n : Nat) (rest : Str), Good v → (lit v).length ≤ n → Ends rest →
    parse n (lit v ++ rest) = some (value v, rest)
  | .invalid, 0, _, _, hn, _ => by
    exact absurd (List.length_eq_zero_iff.mp (Nat.le_zero.mp hn)) (lit_ne_nil _)
  | .invalid, n + 1, rest, _, _, he => by
    rw [lit, parse_word (w := "undefined".toList) (c := 'u') (r := "ndefined".toList) rfl (by decide) he]
    rfl
  | .bool b, 0, _, _, hn, _ => by
    exact absurd (List.length_eq_zero_iff.mp (Nat.le_zero.mp hn)) (lit_ne_nil _)
  | .bool b, n + 1, rest, _, _, he => by
    cases b
    · rw [lit, litBool, if_neg (by decide), parse_word (w := "false".toList) (c := 'f') (r := "alse".toList) rfl (by decide) he]
      rfl
    · rw [lit, litBool, if_pos (by first | trivial | rfl), parse_word (w := "true".toList) (c := 't') (r := "rue".toList) rfl (by decide) he]
      rfl
  | .int i, 0, _, _, hn, _ => by
    exact absurd (List.length_eq_zero_iff.mp (Nat.le_zero.mp hn)) (lit_ne_nil _)
  | .int i, n + 1, rest, hg, _, he => by
    simp only [Good] at hg
    simp only [lit, litInt]
    by_cases hi : i < 0
    · rw [if_pos hi, List.cons_append]
      unfold parse
      rw [skip_of_head rfl (by decide)]
      simp only
      rw [if_neg (by decide), if_neg (by decide), if_neg (by decide), if_pos (by first | trivial | rfl),
        parseNat_number _ hg rest he]
      simp only [Option.map_some, value, Option.some.injEq, Prod.mk.injEq, JsVal.num.injEq, and_true]
      omega
    · rw [if_neg hi]
      obtain ⟨c, r, hc⟩ := List.exists_cons_of_ne_nil (Digits.number_ne_nil i.natAbs)
      have hd := Digits.number_isDigit i.natAbs c (by rw [hc]; simp)
      rw [parse_digit (c := c) (r := r ++ rest) (by rw [hc]; rfl) hd, parseNat_number _ hg rest he]
      simp only [Option.map_some, value, Option.some.injEq, Prod.mk.injEq, JsVal.num.injEq, and_true]
      omega
  | .str s, 0, _, _, hn, _ => by
    exact absurd (List.length_eq_zero_iff.mp (Nat.le_zero.mp hn)) (lit_ne_nil _)
  | .str s, n + 1, rest, hg, _, _ => by
    simp only [lit, litStr, List.cons_append, List.append_assoc, List.nil_append]
    unfold parse
    rw [skip_of_head rfl (by decide)]
    simp only
    rw [if_pos (by first | trivial | rfl), parseStr_escape s rest hg]
    rfl
  | .list l, 0, _, _, hn, _ => by
    exact absurd (List.length_eq_zero_iff.mp (Nat.le_zero.mp hn)) (lit_ne_nil _)
  | .list [], n + 1, rest, _, _, _ => by
    simp only [lit, litItems, List.cons_append, List.nil_append]
    unfold parse
    rw [skip_of_head rfl (by decide)]
    simp only
    rw [if_neg (by decide), if_pos (by first | trivial | rfl), skip_of_head (c := ']') rfl (by decide)]
    rfl
  | .list (v :: l), n + 1, rest, hg, hn, _ => by
    simp only [Good] at hg
    simp only [lit, List.length_cons, List.length_append, List.length_nil] at hn
    rw [lit, List.cons_append, List.cons_append, List.append_assoc, List.singleton_append]
    unfold parse
    rw [skip_of_head rfl (by decide)]
    simp only
    obtain ⟨c, hc1, hc2, hc3⟩ := lit_head v hg.1
    rw [litItems_cons] at hn ⊢
    have hh : (lit v ++ tailItems l ++ ']' :: rest).head? = some c :=
      head?_append' (head?_append' hc1 _) _
    rw [if_neg (by decide), if_pos (by first | trivial | rfl), skip_of_head hh hc2, if_neg (by
      rw [hh]; simpa using hc3)]
    rw [parse_items v l n rest hg (by omega)]
    rfl
  | .map l, 0, _, _, hn, _ => by
    exact absurd (List.length_eq_zero_iff.mp (Nat.le_zero.mp hn)) (lit_ne_nil _)
  | .map [], n + 1, rest, _, _, _ => by
    simp only [lit, litEntries, List.cons_append, List.nil_append]
    unfold parse
    rw [skip_of_head rfl (by decide)]
    simp only
    rw [if_neg (by decide), if_neg (by decide), if_pos (by first | trivial | rfl), skip_of_head (c := '}') rfl (by decide)]
    rfl
  | .map ((k, v) :: l), n + 1, rest, hg, hn, _ => by
    obtain ⟨hnd, hg⟩ := hg
    simp only [lit, List.length_cons, List.length_append, List.length_nil] at hn
    rw [lit, List.cons_append, List.cons_append, List.append_assoc, List.singleton_append]
    unfold parse
    rw [skip_of_head rfl (by decide)]
    simp only
    have hh : (litEntries true ((k, v) :: l) ++ '}' :: rest).head? = some '"' := by
      simp [litEntries, litStr]
    rw [if_neg (by decide), if_neg (by decide), if_pos (by first | trivial | rfl), skip_of_head hh (by decide), if_neg (by
      rw [hh]; decide)]
    have := parse_entries k v l n [] rest hg (by simpa using hnd) (by
      simp only [litEntries] at hn; simp only [litEntries, List.length_append] at hn ⊢
      simp only [if_true, List.length_nil] at hn
      omega)
    rw [litEntries, if_pos (by first | trivial | rfl), List.nil_append, this]
    rfl
  | .double t, _, _, hg, _, _ => absurd hg (by simp [Good])
  | .other t, _, _, hg, _, _ => absurd hg (by simp [Good])
theorem parse_items : ∀ (v : Var) (l : List Var) (n : Nat) (rest : Str), GoodAll (v :: l) →
    (lit v ++ tailItems l).length + 1 ≤ n →
    parseItems n (lit v ++ tailItems l ++ ']' :: rest) = some (values (v :: l), rest)
  | v, l, 0, _, _, hn => by omega
  | v, [], n + 1, rest, hg, hn => by
    simp only [tailItems, List.append_nil] at hn ⊢
    unfold parseItems
    rw [parse_lit v n (']' :: rest) hg.1 (by omega) (Or.inr (Or.inr (Or.inl rfl)))]
    simp only
    rw [skip_of_head (c := ']') rfl (by decide), if_pos (by first | trivial | rfl)]
    rfl
  | v, w :: l, n + 1, rest, hg, hn => by
    simp only [tailItems, List.length_append, List.length_cons] at hn
    unfold parseItems
    rw [List.append_assoc, parse_lit v n _ hg.1 (by omega) (ends_tailItems (w :: l) rest)]
    simp only
    have hh : (tailItems (w :: l) ++ ']' :: rest).head? = some ',' := rfl
    rw [skip_of_head hh (by decide), if_neg (by rw [hh]; decide), if_pos hh]
    have h2 : (tailItems (w :: l) ++ ']' :: rest).tail = ' ' :: (lit w ++ tailItems l ++ ']' :: rest) := by
      simp [tailItems]
    have h3 : ∀ m s, parseItems m (' ' :: s) = parseItems m s := by
      intro m s
      cases m with
      | zero => simp [parseItems]
      | succ m => unfold parseItems; rw [parse_skip]
    have hlv : 1 ≤ (lit v).length := Nat.pos_of_ne_zero (fun h => lit_ne_nil v (List.length_eq_zero_iff.mp h))
    rw [h2, h3, parse_items w l n rest hg.2 (by rw [List.length_append]; omega)]
    rfl
theorem parse_entries : ∀ (k : Str) (v : Var) (l : List (Str × Var)) (n : Nat) (o : List (Str × JsVal))
    (rest : Str), GoodEntries ((k, v) :: l) → (o.map (·.1) ++ k :: l.map (·.1)).Nodup →
    (litStr k ++ ':' :: lit v ++ litEntries false l).length + 1 ≤ n →
    parseEntries n o (litStr k ++ ':' :: lit v ++ litEntries false l ++ '}' :: rest) =
      some (o ++ entryValues ((k, v) :: l), rest)
  | k, v, l, 0, _, _, _, _, hn => by omega
  | k, v, l, n + 1, o, rest, hg, hd, hn => by
    obtain ⟨hk, hk', hv, hl⟩ := hg
    simp only [List.length_append, List.length_cons] at hn
    have hs : litStr k ++ ':' :: lit v ++ litEntries false l ++ '}' :: rest =
        '"' :: (escape k ++ '"' :: (':' :: (lit v ++ (litEntries false l ++ '}' :: rest)))) := by
      simp [litStr]
    have hlen : 2 ≤ (litStr k).length := by simp [litStr]
    rw [hs]
    unfold parseEntries
    rw [skip_of_head (c := '"') rfl (by decide), if_pos (by first | trivial | rfl), List.tail_cons, parseStr_escape k _ hk]
    simp only
    rw [skip_of_head (c := ':') rfl (by decide), if_pos (by first | trivial | rfl), List.tail_cons,
      parse_lit v n _ hv (by omega) (ends_entries l rest)]
    simp only
    have hnew : k ∉ o.map (·.1) := by
      intro h
      rw [List.nodup_append] at hd
      exact hd.2.2 k h k List.mem_cons_self rfl
    cases l with
    | nil =>
      simp only [litEntries, List.nil_append]
      rw [skip_of_head (c := '}') rfl (by decide), if_pos (by first | trivial | rfl), put_new o k _ hk' hnew]
      rfl
    | cons e l =>
      obtain ⟨k', v'⟩ := e
      have hh : (litEntries false ((k', v') :: l) ++ '}' :: rest).head? = some ',' := by
        rw [litEntries]; rfl
      rw [skip_of_head hh (by decide), if_neg (by rw [hh]; decide), if_pos hh, put_new o k _ hk' hnew]
      have ht : (litEntries false ((k', v') :: l) ++ '}' :: rest).tail =
          litStr k' ++ ':' :: lit v' ++ litEntries false l ++ '}' :: rest := by
        simp [litEntries]
      simp only [litEntries, List.length_append, List.length_cons] at hn
      rw [ht, parse_entries k' v' l n (o ++ [(k, value v)]) rest hl (by simpa using hd) (by
        simp only [List.length_append, List.length_cons]; omega)]
      simp [entryValues]
end

/-- **C38 (partial).** The literal of a variant evaluates to the variant's value: for all nested lists
and maps of booleans, integers of at most 53 bits, and strings without ends of lines. Missing: other
values, for which it is false (see the findings). -/
theorem C38_variant_partial (v : Var) (h : Good v) : evaluate (lit v) = some (value v) := by
  unfold evaluate
  have := parse_lit v (lit v).length [] h (Nat.le_refl _) (Or.inl rfl)
  rw [List.append_nil] at this
  rw [this]
  rfl

/-- **C38.** The literal of a string evaluates to this string exactly if no line ends within it. -/
theorem C38_string_iff (s : Str) : evaluate (litStr s) = some (.str s) ↔ OneLine s := by
  constructor
  · intro h
    refine Classical.byContradiction (fun hn => ?_)
    have hfail : ∀ (s : Str) (rest : Str), ¬ OneLine s → parseStr (escape s ++ rest) = none := by
      intro s
      induction s with
      | nil => intro rest hn; exact absurd (fun c hc => by cases hc) hn
      | cons c s ih =>
        intro rest hn
        unfold escape
        by_cases h1 : c = '\\' ∨ c = '"'
        · have hc : isLineEnd c = false := by rcases h1 with rfl | rfl <;> decide
          have hn' : ¬ OneLine s := fun h => hn (by
            intro d hd
            rcases List.mem_cons.mp hd with rfl | hd
            · exact hc
            · exact h d hd)
          rw [if_pos h1, List.cons_append, List.cons_append]
          unfold parseStr
          rw [if_neg (by decide), if_neg (by decide), if_pos (by first | trivial | rfl)]
          have hu : unescape c = some [c] := by
            rcases h1 with rfl | rfl <;> decide
          simp [hu, ih rest hn']
        · rw [if_neg h1, List.cons_append]
          unfold parseStr
          rw [if_neg (fun hh => h1 (Or.inr hh))]
          by_cases hc : isLineEnd c = true
          · rw [if_pos hc]
          · have hn' : ¬ OneLine s := fun h => hn (by
              intro d hd
              rcases List.mem_cons.mp hd with rfl | hd
              · simpa using hc
              · exact h d hd)
            rw [if_neg hc, if_neg (fun hh => h1 (Or.inl hh))]
            simp [ih rest hn']
    have h0 : evaluate (litStr s) = none := by
      unfold evaluate litStr
      have hl : ('"' :: escape s ++ ['"']).length = (escape s ++ ['"']).length + 1 := by simp
      rw [hl]
      unfold parse
      rw [List.cons_append, skip_of_head rfl (by decide)]
      simp [hfail s ['"'] hn]
    rw [h0] at h
    cases h
  · intro h
    have := C38_variant_partial (.str s) (by simpa [Good] using h)
    rwa [lit, value] at this

theorem litStrs_eq : ∀ (l : List Str), litStrs l = lit (.list (l.map .str)) := by
  intro l
  have h : ∀ l : List Str, litStrsLoop false l = tailItems (l.map .str) ++ [']'] := by
    intro l
    induction l with
    | nil => rfl
    | cons s l ih => simp [litStrsLoop, tailItems, ih, lit]
  cases l with
  | nil => simp [litStrs, litStrsLoop, lit, litItems]
  | cons s l =>
    simp only [litStrs, litStrsLoop, List.map_cons]
    rw [lit, litItems_cons, h]
    simp [lit]

/-- **C38.** String lists: both ways to convert them give the same, and it evaluates to the list. -/
theorem C38_string_list (l : List Str) (h : ∀ s ∈ l, OneLine s) :
    litStrs l = lit (.list (l.map .str)) ∧ evaluate (litStrs l) = some (.arr (l.map .str)) := by
  refine ⟨litStrs_eq l, ?_⟩
  rw [litStrs_eq, C38_variant_partial]
  · have : ∀ l : List Str, values (l.map .str) = l.map .str := by
      intro l
      induction l with
      | nil => rfl
      | cons s l ih => simp [values, value, ih]
    rw [value, this]
  · simp only [Good]
    induction l with
    | nil => trivial
    | cons s l ih =>
      exact ⟨h s List.mem_cons_self, ih (fun t ht => h t (List.mem_cons_of_mem _ ht))⟩

/-! ## Cases -/

/-- A nested value. -/
def sample : Var :=
  .map [("a b".toList, .list [.int (-12), .str "x\"y\\z".toList, .invalid, .list []]),
    ("m".toList, .map [("t".toList, .bool true)]), ([], .int 4096)]

example : Good sample := by
  simp only [sample, Good, GoodAll, GoodEntries, OneLine]
  decide

example : lit sample =
    "{\"a b\":[-12, \"x\\\"y\\\\z\", undefined, []],\"m\":{\"t\":true},\"\":4096}".toList := by
  simp only [sample, lit, litEntries, litItems, litBool, litInt, litStr]
  decide +kernel

/-- **C38 finding.** Ends of lines are not escaped: the literal of such a string is not an expression. -/
theorem C38_line_end : evaluate (lit (.str "a\nb".toList)) = none := by
  rw [lit]
  rfl

/-- **C38 finding.** Floating point numbers turn into strings (jsliterals.cpp 113-129: `QMetaType::Double`
is not listed, but it can be converted to a string). -/
theorem C38_double_is_string : evaluate (lit (.double "1.5".toList)) = some (.str "1.5".toList) := by
  rw [lit]
  rfl

theorem evaluate_nat (n : Nat) : evaluate (lit (.int n)) = some (.num (toDouble n)) := by
  have h1 : lit (.int n) = Digits.number n := by
    rw [lit, litInt, if_neg (by omega), Int.natAbs_natCast]
  have h3 := parseNat_number_any n [] (Or.inl rfl)
  rw [List.append_nil] at h3
  obtain ⟨c, r, hc⟩ := List.exists_cons_of_ne_nil (Digits.number_ne_nil n)
  have hd := Digits.number_isDigit n c (by rw [hc]; simp)
  have hl : (Digits.number n).length = r.length + 1 := by rw [hc]; rfl
  rw [h1]
  unfold evaluate
  rw [hl, parse_digit hc hd, h3, Option.map_some]
  simp only [skip, if_true]

/-- **C38 finding.** Integers with more than 53 bits change. -/
theorem C38_large_integer :
    evaluate (lit (.int (9007199254740993 : Nat))) = some (.num (9007199254740992 : Nat)) := by
  rw [evaluate_nat, show toDouble 9007199254740993 = 9007199254740992 by decide +kernel]

/-- The keys of an object. -/
def keys : JsVal → List Str
  | .obj l => l.map (·.1)
  | _ => []

/-- **C38 finding.** A map's entry with the key `__proto__` is lost: the object has no keys. -/
theorem C38_proto_lost :
    (evaluate (lit (.map [("__proto__".toList, .map [])]))).map keys = some [] := by
  have h : lit (.map [("__proto__".toList, .map [])]) = "{\"__proto__\":{}}".toList := by
    simp only [lit, litEntries]
    rfl
  rw [h]
  decide +kernel

/-- **C38 finding.** For types without conversion to a string the result is not JavaScript. -/
theorem C38_unconvertible : evaluate (lit (.other "QObject*".toList)) = none := by
  rw [lit]
  rfl

end Verif.Literal
