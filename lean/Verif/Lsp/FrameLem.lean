import Verif.Lsp.FrameSpec

namespace Verif.Lsp

theorem crlf : "\r\n".toList = ['\r', '\n'] := rfl
theorem colonBlank : ": ".toList = [':', ' '] := rfl
theorem lengthPre : "Content-Length: ".toList = contentLengthName ++ [':', ' '] := by decide
theorem typePre : "Content-Type: ".toList = contentTypeName ++ [':', ' '] := by decide
theorem charsetPre : "; charset=".toList = ';' :: " charset=".toList := by decide

theorem linesOf_line (x r : List Char) (h : '\n' ∉ x) :
    linesOf (x ++ '\n' :: r) = (x ++ ['\n']) :: linesOf r := by
  induction x with
  | nil => simp [linesOf]
  | cons c cs ih =>
    simp only [List.mem_cons, not_or] at h
    simp only [List.cons_append, linesOf, if_neg (Ne.symm h.1), ih h.2]

theorem linesOf_part (x : List Char) (h : '\n' ∉ x) (h0 : x ≠ []) : linesOf x = [x] := by
  induction x with
  | nil => exact absurd rfl h0
  | cons c cs ih =>
    simp only [List.mem_cons, not_or] at h
    simp only [linesOf, if_neg (Ne.symm h.1)]
    cases cs with
    | nil => simp [linesOf]
    | cons d ds => rw [ih h.2 (by simp)]

theorem splitField_append (n v : List Char) (h : ':' ∉ n) :
    splitField (n ++ ':' :: ' ' :: v) = some (n, v) := by
  induction n with
  | nil => simp [splitField]
  | cons c cs ih =>
    simp only [List.mem_cons, not_or] at h
    simp [splitField, Ne.symm h.1, ih h.2]

theorem dropWhile_append_all {α} (p : α → Bool) (a b : List α) (h : ∀ x ∈ a, p x = true) :
    (a ++ b).dropWhile p = b.dropWhile p := by
  induction a with
  | nil => rfl
  | cons c cs ih =>
    simp only [List.cons_append, List.dropWhile, h c (by simp)]
    exact ih (fun x hx => h x (by simp [hx]))

theorem dropWhile_none {α} (p : α → Bool) (a : List α) (h : ∀ x ∈ a, p x = false) :
    a.dropWhile p = a := by
  cases a with
  | nil => rfl
  | cons c cs => simp [List.dropWhile, h c (by simp)]

theorem dropWhile_head {α} (p : α → Bool) (a : List α) (h : ∀ x, a.head? = some x → p x = false) :
    a.dropWhile p = a := by
  cases a with
  | nil => rfl
  | cons c cs => simp [List.dropWhile, h c rfl]

/-- Trimming a text that neither begins nor ends with a blank, with blanks around. -/
theorem trimmed_core (a s b : List Char) (ha : ∀ x ∈ a, isBlank x = true)
    (hb : ∀ x ∈ b, isBlank x = true) (h1 : ∀ x, s.head? = some x → isBlank x = false)
    (h2 : ∀ x, s.getLast? = some x → isBlank x = false) : trimmed (a ++ s ++ b) = s := by
  unfold trimmed
  rw [List.append_assoc, dropWhile_append_all _ _ _ ha]
  rcases s with _ | ⟨c, cs⟩
  · rw [List.nil_append]
    have : b.dropWhile isBlank = [] := by
      have := dropWhile_append_all isBlank b [] hb
      simpa using this
    rw [this]
    rfl
  · have e : ((c :: cs) ++ b).dropWhile isBlank = (c :: cs) ++ b := by
      apply dropWhile_head
      intro x hx
      simp only [List.cons_append, List.head?_cons, Option.some.injEq] at hx
      exact h1 x (by simp [hx])
    rw [e, List.reverse_append, dropWhile_append_all _ _ _ (by simpa using hb)]
    rw [dropWhile_head, List.reverse_reverse]
    intro x hx
    rw [List.head?_reverse] at hx
    exact h2 x hx

theorem plain_notBlank {c : Char} (h : Plain c) : isBlank c = false := by
  obtain ⟨h1, h2, h3, h4, h5, h6, _⟩ := h
  simp [isBlank, h1, h2, h3, h4, h5, h6]

theorem trimmed_plain (a s b : List Char) (ha : ∀ x ∈ a, isBlank x = true)
    (hb : ∀ x ∈ b, isBlank x = true) (h : ∀ x ∈ s, isBlank x = false) :
    trimmed (a ++ s ++ b) = s := by
  apply trimmed_core _ _ _ ha hb
  · intro x hx
    exact h x (List.mem_of_head? hx)
  · intro x hx
    exact h x (List.mem_of_getLast? hx)

theorem digit_notBlank {c : Char} (h : c.isDigit = true) : isBlank c = false := by
  rw [Bool.eq_false_iff]
  intro hb
  simp only [isBlank, Bool.or_eq_true, beq_iff_eq] at hb
  rcases hb with ((((rfl | rfl) | rfl) | rfl) | rfl) | rfl <;> revert h <;> decide

theorem digits_number (n : Nat) : digits (Digits.number n) = some n := by
  unfold digits
  rw [if_pos ⟨Digits.number_ne_nil n, by simpa using Digits.number_isDigit n⟩, Digits.value_number]

theorem toInt_number (n : Nat) (h : n < 2 ^ 31) : toInt (Digits.number n) = some (n : Int) := by
  have hd := Digits.number_isDigit n
  have e := digits_number n
  unfold toInt
  have hm : (match Digits.number n with
    | '-' :: r => (digits r).map fun n => -(n : Int)
    | '+' :: r => (digits r).map fun n => (n : Int)
    | r => (digits r).map fun n => (n : Int)) = some (n : Int) := by
    split
    · rename_i r hr
      exact absurd (hd '-' (by rw [hr]; simp)) (by decide)
    · rename_i r hr
      exact absurd (hd '+' (by rw [hr]; simp)) (by decide)
    · rw [e]; rfl
  have hr : (-(2 ^ 31 : Int)) ≤ (n : Int) ∧ (n : Int) < 2 ^ 31 := by omega
  show (match (match Digits.number n with
    | '-' :: r => (digits r).map fun n => -(n : Int)
    | '+' :: r => (digits r).map fun n => (n : Int)
    | r => (digits r).map fun n => (n : Int)) with
    | some i => if -(2 ^ 31 : Int) ≤ i ∧ i < 2 ^ 31 then some i else none
    | none => none) = _
  rw [hm]
  exact if_pos hr

theorem lengthName_blank : ∀ x ∈ contentLengthName, isBlank x = false := by decide
theorem typeName_blank : ∀ x ∈ contentTypeName, isBlank x = false := by decide

theorem headerLine_length (known : List Char → Bool) (m : Msg) (e : Option PErr) (n : Nat)
    (h : n < 2 ^ 31) :
    headerLine known m e ("Content-Length: ".toList ++ Digits.number n ++ "\r\n".toList)
      = ({ m with contentLength := n }, e) := by
  have hs : "Content-Length: ".toList ++ Digits.number n ++ "\r\n".toList
      = contentLengthName ++ ':' :: ' ' :: (Digits.number n ++ ['\r', '\n']) := by
    rw [lengthPre, crlf]
    simp only [List.append_assoc, List.cons_append, List.nil_append]
  unfold headerLine
  rw [hs, splitField_append _ _ (by decide)]
  have t1 : trimmed contentLengthName = contentLengthName := by decide
  have t2 : trimmed (Digits.number n ++ ['\r', '\n']) = Digits.number n := by
    have := trimmed_plain [] (Digits.number n) ['\r', '\n'] (by simp) (by decide)
      (fun x hx => digit_notBlank (Digits.number_isDigit n x hx))
    simpa using this
  simp only [t1, t2, if_true, parseContentLength, toInt_number n h]

theorem splitAt'_none (sep : Char) (s : List Char) (h : sep ∉ s) : splitAt' sep s = [s] := by
  induction s with
  | nil => rfl
  | cons c cs ih =>
    simp only [List.mem_cons, not_or] at h
    simp [splitAt', Ne.symm h.1, ih h.2]

theorem splitAt'_append (sep : Char) (s r : List Char) (h : sep ∉ s) :
    splitAt' sep (s ++ sep :: r) = s :: splitAt' sep r := by
  induction s with
  | nil => simp [splitAt']
  | cons c cs ih =>
    simp only [List.mem_cons, not_or] at h
    simp [splitAt', Ne.symm h.1, ih h.2]

theorem typeElement_charset (known : List Char → Bool) (e : Option PErr) (c : List Char)
    (h : ∀ x ∈ c, Plain x) (hc : c ≠ []) (hk : known c = true) :
    typeElement known (none, e) (" charset=".toList ++ c) = (some c, e) := by
  have t : trimmed (" charset=".toList ++ c) = "charset=".toList ++ c := by
    have := trimmed_core [' '] ("charset=".toList ++ c) [] (by decide) (by simp)
      (by intro x hx; simp at hx; subst hx; decide)
      (by
        intro x hx
        rw [List.getLast?_append] at hx
        have hl : c.getLast? = some (c.getLast hc) := List.getLast?_eq_some_getLast hc
        rw [hl] at hx
        simp at hx
        subst hx
        exact plain_notBlank (h _ (List.getLast_mem hc)))
    simpa using this
  unfold typeElement
  simp only [t]
  have p : "charset".toList.isPrefixOf ("charset=".toList ++ c) = true := by
    simp [List.isPrefixOf]
  have q : '=' ∈ ("charset=".toList ++ c) := by simp
  have d : (("charset=".toList ++ c).dropWhile (· != '=')).tail = c := by
    simp [List.dropWhile]
  rw [if_pos p]
  simp only [if_pos q, d, hk, if_true]
  simp

/-- What a field does to the message. -/
def Field.apply (m : Msg) : Field → Msg
  | .other _ _ => m
  | .type t c => { m with mimeType := t, codec := c }

theorem headerLine_split (known : List Char → Bool) (m : Msg) (e : Option PErr) (line n v : List Char)
    (h : splitField line = some (n, v)) : headerLine known m e line =
      if trimmed n = contentLengthName then parseContentLength m e (trimmed v)
      else if trimmed n = contentTypeName then parseContentType known m e (trimmed v)
      else (m, e) := by
  unfold headerLine
  rw [h]

theorem other_text (n v : List Char) :
    (Field.other n v).text = n ++ ':' :: ' ' :: (v ++ ['\r', '\n']) := by
  show n ++ ": ".toList ++ v ++ "\r\n".toList = _
  rw [crlf, colonBlank]
  simp only [List.append_assoc, List.cons_append, List.nil_append]

theorem type_text (t c : List Char) : (Field.type t c).text
    = contentTypeName ++ ':' :: ' ' :: ((t ++ ';' :: (" charset=".toList ++ c)) ++ ['\r', '\n']) := by
  show "Content-Type: ".toList ++ t ++ "; charset=".toList ++ c ++ "\r\n".toList = _
  rw [crlf, typePre, charsetPre]
  simp only [List.append_assoc, List.cons_append, List.nil_append]

theorem headerLine_other (known : List Char → Bool) (m : Msg) (e : Option PErr) (n v : List Char)
    (h1 : ∀ c ∈ n, Plain c) (h2 : n ≠ contentLengthName) (h3 : n ≠ contentTypeName) :
    headerLine known m e (Field.other n v).text = (m, e) := by
  have hs : splitField (Field.other n v).text = some (n, v ++ ['\r', '\n']) := by
    rw [other_text]
    exact splitField_append _ _ (fun hm => (h1 _ hm).2.2.2.2.2.2.1 rfl)
  rw [headerLine_split known m e _ _ _ hs]
  have t1 : trimmed n = n := by
    have := trimmed_plain [] n [] (by simp) (by simp) (fun x hx => plain_notBlank (h1 x hx))
    simpa using this
  rw [t1, if_neg h2, if_neg h3]

theorem trimmed_type (t c : List Char) (h1 : ∀ x ∈ t, Plain x) (h2 : ∀ x ∈ c, Plain x) (h3 : t ≠ [])
    (h4 : c ≠ []) : trimmed ((t ++ ';' :: (" charset=".toList ++ c)) ++ ['\r', '\n'])
        = t ++ ';' :: (" charset=".toList ++ c) := by
  have := trimmed_core [] (t ++ ';' :: (" charset=".toList ++ c)) ['\r', '\n']
    (fun x hx => by cases hx) (by decide)
    (by
      intro x hx
      obtain ⟨y, ys, rfl⟩ := List.exists_cons_of_ne_nil h3
      rw [List.cons_append, List.head?_cons] at hx
      cases hx
      exact plain_notBlank (h1 _ (List.mem_cons_self ..)))
    (by
      intro x hx
      have hl : c.getLast? = some (c.getLast h4) := List.getLast?_eq_some_getLast h4
      have e1 : t ++ ';' :: (" charset=".toList ++ c) = (t ++ ';' :: " charset=".toList) ++ c := by
        rw [List.append_assoc, List.cons_append]
      rw [e1, List.getLast?_append, hl] at hx
      cases hx
      exact plain_notBlank (h2 _ (List.getLast_mem h4)))
  rw [List.nil_append] at this
  exact this

theorem headerLine_type (known : List Char → Bool) (m : Msg) (e : Option PErr) (t c : List Char)
    (h1 : ∀ x ∈ t, Plain x) (h2 : ∀ x ∈ c, Plain x) (h3 : t ≠ []) (h4 : c ≠ [])
    (h5 : known c = true) :
    headerLine known m e (Field.type t c).text = ({ m with mimeType := t, codec := c }, e) := by
  have hs : splitField (Field.type t c).text
      = some (contentTypeName, (t ++ ';' :: (" charset=".toList ++ c)) ++ ['\r', '\n']) := by
    rw [type_text]
    exact splitField_append _ _ (by decide)
  have t1 : trimmed contentTypeName = contentTypeName := by decide
  have n1 : contentTypeName ≠ contentLengthName := by decide
  rw [headerLine_split known m e _ _ _ hs, t1, if_neg n1, if_pos rfl, trimmed_type t c h1 h2 h3 h4]
  have u : unquote (t ++ ';' :: (" charset=".toList ++ c)) = t ++ ';' :: (" charset=".toList ++ c) := by
    unfold unquote
    rw [if_neg]
    rintro ⟨hh, _⟩
    obtain ⟨y, ys, rfl⟩ := List.exists_cons_of_ne_nil h3
    rw [List.cons_append, List.head?_cons] at hh
    cases hh
    exact (h1 _ (List.mem_cons_self ..)).2.2.2.2.2.2.2.2.2 rfl
  have hsplit : splitAt' ';' (unquote (t ++ ';' :: (" charset=".toList ++ c)))
      = [t, " charset=".toList ++ c] := by
    rw [u, splitAt'_append _ _ _ (fun hm => (h1 _ hm).2.2.2.2.2.2.2.1 rfl), splitAt'_none]
    intro hm
    rw [List.mem_append] at hm
    rcases hm with hm | hm
    · revert hm; decide
    · exact (h2 _ hm).2.2.2.2.2.2.2.1 rfl
  unfold parseContentType
  rw [hsplit]
  simp only [List.tail_cons, List.foldl_cons, List.foldl_nil, List.headD_cons]
  rw [typeElement_charset known e c h2 h4 h5]
  rfl

theorem headerLine_field (known : List Char → Bool) (m : Msg) (e : Option PErr) (f : Field)
    (h : f.Ok known) : headerLine known m e f.text = (f.apply m, e) := by
  cases f with
  | other n v => exact headerLine_other known m e n v h.1 h.2.1 h.2.2.1
  | type t c => exact headerLine_type known m e t c h.1 h.2.1 h.2.2.1 h.2.2.2.1 h.2.2.2.2

/-- A line of a header. -/
def IsLine (l : List Char) : Prop := ∃ x, l = x ++ ['\n'] ∧ '\n' ∉ x ∧ l ≠ headerSeparator

theorem field_isLine (known : List Char → Bool) (f : Field) (h : f.Ok known) : IsLine f.text := by
  cases f with
  | other n v =>
    refine ⟨n ++ ':' :: ' ' :: (v ++ ['\r']), ?_, ?_, ?_⟩
    · rw [other_text]
      simp only [List.append_assoc, List.cons_append, List.nil_append]
    · simp only [List.mem_append, List.mem_cons, not_or]
      exact ⟨fun hm => (h.1 _ hm).2.2.1 rfl, by decide, by decide, h.2.2.2, by decide⟩
    · intro e
      rw [other_text] at e
      have := congrArg List.length e
      simp only [List.length_append, List.length_cons, headerSeparator, List.length_nil] at this
      omega
  | type t c =>
    refine ⟨contentTypeName ++ ':' :: ' ' :: (t ++ ';' :: (" charset=".toList ++ (c ++ ['\r']))),
      ?_, ?_, ?_⟩
    · rw [type_text]
      simp only [List.append_assoc, List.cons_append, List.nil_append]
    · simp only [List.mem_append, List.mem_cons, not_or]
      exact ⟨by decide, by decide, by decide, fun hm => (h.1 _ hm).2.2.1 rfl, by decide, by decide,
        fun hm => (h.2.1 _ hm).2.2.1 rfl, by decide⟩
    · intro e
      rw [type_text] at e
      have := congrArg List.length e
      simp only [List.length_append, List.length_cons, headerSeparator, List.length_nil] at this
      omega

theorem number_noNewline (n : Nat) : '\n' ∉ Digits.number n := by
  intro h
  have := Digits.number_isDigit n _ h
  revert this; decide

theorem length_isLine (n : Nat) :
    IsLine ("Content-Length: ".toList ++ Digits.number n ++ "\r\n".toList) := by
  refine ⟨"Content-Length: ".toList ++ Digits.number n ++ ['\r'], by simp, ?_, ?_⟩
  · simp only [List.mem_append, not_or]
    exact ⟨⟨by decide, number_noNewline n⟩, by decide⟩
  · intro e
    have := congrArg List.length e
    simp [headerSeparator] at this

theorem headerLoop_line (known : List Char → Bool) (m : Msg) (e : Option PErr) (n : Nat)
    (l r : List Char) (h : IsLine l) :
    headerLoop known m e n (linesOf (l ++ r))
      = headerLoop known (headerLine known m e l).1 (headerLine known m e l).2 (n + l.length)
          (linesOf r) := by
  obtain ⟨x, rfl, hx, hn⟩ := h
  rw [List.append_assoc, List.singleton_append, linesOf_line x r hx]
  rw [headerLoop, if_neg hn]

theorem headerLoop_fields (known : List Char → Bool) (fs : List Field) (r : List Char)
    (h : ∀ f ∈ fs, f.Ok known) : ∀ (m : Msg) (e : Option PErr) (n : Nat),
    headerLoop known m e n (linesOf ((fs.map Field.text).flatten ++ r))
      = headerLoop known (fs.foldl Field.apply m) e (n + (fs.map Field.text).flatten.length)
          (linesOf r) := by
  induction fs with
  | nil => intro m e n; simp
  | cons f fs ih =>
    intro m e n
    have h1 := h f (by simp)
    simp only [List.map_cons, List.flatten_cons, List.append_assoc]
    rw [headerLoop_line _ _ _ _ _ _ (field_isLine known f h1), headerLine_field known m e f h1]
    simp only
    rw [ih (fun g hg => h g (by simp [hg]))]
    simp [List.foldl_cons, Nat.add_assoc]

/-- The message that the header of a frame describes. -/
def Frame.msg (f : Frame) : Msg :=
  f.behind.foldl Field.apply { f.before.foldl Field.apply {} with contentLength := f.content.length }

theorem headerLoop_header (known : List Char → Bool) (f : Frame) (h : f.Ok known) (r : List Char) :
    headerLoop known {} none 0 (linesOf (f.header ++ r)) = (some (f.header.length, f.msg), none) := by
  obtain ⟨h1, h2, h3⟩ := h
  have e : f.header ++ r = (f.before.map Field.text).flatten
      ++ (("Content-Length: ".toList ++ Digits.number f.content.length ++ "\r\n".toList)
      ++ ((f.behind.map Field.text).flatten ++ ('\r' :: '\n' :: r))) := by
    simp [Frame.header, List.append_assoc]
  rw [e, headerLoop_fields known _ _ h1, headerLoop_line _ _ _ _ _ _ (length_isLine _),
    headerLine_length known _ _ _ h3]
  simp only
  rw [headerLoop_fields known _ _ h2]
  have l := linesOf_line ['\r'] r (by decide)
  simp only [List.cons_append, List.nil_append] at l
  rw [l, headerLoop, if_pos (show ['\r', '\n'] = headerSeparator from rfl)]
  have el : 0 + (f.before.map Field.text).flatten.length
      + ("Content-Length: ".toList ++ Digits.number f.content.length ++ "\r\n".toList).length
      + (f.behind.map Field.text).flatten.length + ['\r', '\n'].length = f.header.length := by
    have := congrArg List.length e
    simp only [List.length_append, List.length_cons, List.length_nil] at this ⊢
    omega
  rw [el]
  rfl

/-- The lines of a header that has not arrived completely. -/
theorem noSeparator (ls : List (List Char)) (hl : ∀ l ∈ ls, IsLine l) :
    ∀ p, p <+: ls.flatten ++ headerSeparator → p ≠ ls.flatten ++ headerSeparator →
      headerSeparator ∉ linesOf p := by
  induction ls with
  | nil =>
    intro p hp hne
    obtain ⟨t, ht⟩ := hp
    simp only [List.flatten_nil, List.nil_append, headerSeparator] at ht hne
    match p, ht with
    | [], _ => simp [linesOf]
    | [a], ht =>
      simp at ht
      obtain ⟨rfl, _⟩ := ht
      decide
    | [a, b], ht =>
      simp at ht
      obtain ⟨rfl, rfl, _⟩ := ht
      exact absurd rfl hne
    | a :: b :: c :: d, ht => simp at ht
  | cons l ls ih =>
    intro p hp hne
    obtain ⟨x, rfl, hx, hn⟩ := hl l (by simp)
    simp only [List.flatten_cons, List.append_assoc] at hp hne
    rcases Nat.lt_or_ge x.length p.length with hlt | hge
    · have hpre : (x ++ ['\n']) <+: p := by
        apply List.prefix_of_prefix_length_le (l₃ := x ++ (['\n'] ++ (ls.flatten ++ headerSeparator)))
        · simp
        · exact hp
        · simp; omega
      obtain ⟨p', rfl⟩ := hpre
      rw [List.append_assoc, List.singleton_append, linesOf_line x p' hx]
      simp only [List.mem_cons, not_or]
      refine ⟨fun e => hn e.symm, ih (fun l hl' => hl l (by simp [hl'])) p' ?_ ?_⟩
      · simpa using hp
      · intro e
        subst e
        simp at hne
    · have hpre : p <+: x := by
        apply List.prefix_of_prefix_length_le hp (List.prefix_append _ _) hge
      have hp' : '\n' ∉ p := fun hm => hx (hpre.subset hm)
      by_cases h0 : p = []
      · subst h0; simp [linesOf]
      · rw [linesOf_part p hp' h0]
        simp only [List.mem_singleton]
        intro e
        exact hp' (by rw [← e]; decide)

theorem headerLoop_none (known : List Char → Bool) (ls : List (List Char))
    (h : headerSeparator ∉ ls) : ∀ m e n, (headerLoop known m e n ls).1 = none := by
  induction ls with
  | nil => intros; rfl
  | cons l ls ih =>
    intro m e n
    simp only [List.mem_cons, not_or] at h
    rw [headerLoop, if_neg (Ne.symm h.1)]
    exact ih h.2 _ _ _

theorem headerLoop_part (known : List Char → Bool) (f : Frame) (h : f.Ok known) (p : List Char)
    (hp : p <+: f.header) (hl : p.length < f.header.length) (m : Msg) (e : Option PErr) (n : Nat) :
    (headerLoop known m e n (linesOf p)).1 = none := by
  apply headerLoop_none
  have eq : f.header = ((f.before.map Field.text)
      ++ ("Content-Length: ".toList ++ Digits.number f.content.length ++ "\r\n".toList)
        :: (f.behind.map Field.text)).flatten ++ headerSeparator := by
    simp [Frame.header, headerSeparator, List.append_assoc]
  rw [eq] at hp
  refine noSeparator _ ?_ p hp ?_
  · intro l hm
    simp only [List.mem_append, List.mem_map, List.mem_cons] at hm
    rcases hm with ⟨g, hg, rfl⟩ | rfl | ⟨g, hg, rfl⟩
    · exact field_isLine known g (h.1 g hg)
    · exact length_isLine _
    · exact field_isLine known g (h.2.1 g hg)
  · intro e
    rw [← eq] at e
    rw [e] at hl
    exact absurd hl (Nat.lt_irrefl _)

theorem apply_content (fs : List Field) : ∀ m : Msg, (fs.foldl Field.apply m).content = m.content ∧
    (fs.foldl Field.apply m).contentLength = m.contentLength := by
  induction fs with
  | nil => intro m; exact ⟨rfl, rfl⟩
  | cons f fs ih =>
    intro m
    rw [List.foldl_cons, (ih _).1, (ih _).2]
    cases f <;> exact ⟨rfl, rfl⟩

theorem apply_codec (fs : List Field) : ∀ m : Msg, (fs.foldl Field.apply m).codec
    = fs.foldl (fun c fl => match fl with
        | .other _ _ => c
        | .type _ c' => c') m.codec := by
  induction fs with
  | nil => intro m; rfl
  | cons f fs ih =>
    intro m
    rw [List.foldl_cons, List.foldl_cons, ih]
    cases f <;> rfl

theorem msg_content (f : Frame) : f.msg.content = [] ∧ f.msg.contentLength = f.content.length ∧
    f.msg.codec = f.charset := by
  refine ⟨?_, ?_, ?_⟩
  · rw [Frame.msg, (apply_content _ _).1]
    exact (apply_content f.before {}).1
  · rw [Frame.msg, (apply_content _ _).2]
  · rw [Frame.msg, apply_codec, Frame.charset, List.foldl_append]
    have := apply_codec f.before {}
    simp only [this]
    rfl

end Verif.Lsp
