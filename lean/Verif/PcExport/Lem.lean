import Verif.PcExport.Spec
import Verif.Pc.Props

namespace Verif.PcExport

open Verif.Pc

/-! ## Lines -/

/-- A text that is read as it is written, if it is part of a line -/
def Clean (t : Text) : Prop := ∃ ps : List LinePart, (∀ p ∈ ps, p.ok) ∧ ps.flatMap LinePart.text = t ∧ ps.flatMap LinePart.value = t

theorem Clean.nil : Clean [] := ⟨[], by simp, rfl, rfl⟩

theorem Clean.append {a b : Text} (ha : Clean a) (hb : Clean b) : Clean (a ++ b) := by
  obtain ⟨ps, h1, h2, h3⟩ := ha
  obtain ⟨qs, k1, k2, k3⟩ := hb
  exact ⟨ps ++ qs, by grind, by simp [h2, k2], by simp [h3, k3]⟩

theorem Clean.char {c : Char} (h : c ≠ '#' ∧ c ≠ '\\' ∧ c ≠ '\n' ∧ c ≠ '\r') : Clean [c] :=
  ⟨[.plain c], by simp [LinePart.ok, h], rfl, rfl⟩

theorem Clean.escaped : Clean ['\\', '"'] := ⟨[.escaped '"'], by simp [LinePart.ok], rfl, rfl⟩

theorem Clean.all {t : Text} (h : ∀ c ∈ t, c ≠ '#' ∧ c ≠ '\\' ∧ c ≠ '\n' ∧ c ≠ '\r') : Clean t := by
  induction t with
  | nil => exact .nil
  | cons c t ih => exact Clean.append (.char (h c (by simp))) (ih (fun d hd => h d (by simp [hd])))

theorem space_n : isSpace '\n' = true := by decide
theorem space_r : isSpace '\r' = true := by decide

theorem Safe.nil : Safe [] := by intro c hc; cases hc
theorem Safe.tail {c : Char} {t : Text} (h : Safe (c :: t)) : Safe t := fun d hd => h d (by simp [hd])
theorem Safe.append {a b : Text} (ha : Safe a) (hb : Safe b) : Safe (a ++ b) := by
  intro c hc
  rcases List.mem_append.1 hc with hc | hc
  · exact ha c hc
  · exact hb c hc

theorem Safe.char {t : Text} (h : Safe t) : ∀ c ∈ t, c ≠ '#' ∧ c ≠ '\\' ∧ c ≠ '\n' ∧ c ≠ '\r' := by
  intro c hc
  obtain ⟨h1, h2, h3, h4, h5, h6⟩ := h c hc
  refine ⟨h4, h1, ?_, ?_⟩
  · intro e; subst e; exact absurd (h6 space_n) (by decide)
  · intro e; subst e; exact absurd (h6 space_r) (by decide)

theorem Safe.clean {t : Text} (h : Safe t) : Clean t := Clean.all h.char

theorem fileLines_clean {ls : List Text} (h : ∀ l ∈ ls, Clean l) : fileLines (ls.flatMap (· ++ ['\n'])) = ls := by
  have : ∃ ks : List Line, (∀ k ∈ ks, k.ok) ∧ ks.map Line.text = ls ∧ ks.map Line.value = ls := by
    induction ls with
    | nil => exact ⟨[], by simp, rfl, rfl⟩
    | cons l ls ih =>
      obtain ⟨ks, h1, h2, h3⟩ := ih (fun x hx => h x (by simp [hx]))
      obtain ⟨ps, k1, k2, k3⟩ := h l (by simp)
      refine ⟨⟨ps, none⟩ :: ks, ?_, ?_, ?_⟩
      · intro k hk
        rcases List.mem_cons.1 hk with rfl | hk
        · exact ⟨k1, by intro t ht; cases ht⟩
        · exact h1 k hk
      · simp [Line.text, k2, h2]
      · simp [Line.value, k3, h3]
  obtain ⟨ks, h1, h2, h3⟩ := this
  have h' := fileLines_text (ls := ks) (last := ⟨[], none⟩) (b := false) h1 ⟨by simp, by intro t ht; cases ht⟩ (by simp)
  have e : fileText ks ⟨[], none⟩ false = ls.flatMap (· ++ ['\n']) := by
    rw [← h2]
    simp [fileText, Line.text, List.flatMap_map]
  rw [e, h3] at h'
  rw [h']
  simp [Line.text]

/-! ## Variables -/

/-- Replacing variables turns one text into another one, whatever follows. -/
def Sub (lookup : Text → Option Text) (a b : Text) : Prop :=
  ∀ s, subst lookup none (a ++ s) = (subst lookup none s).map (b ++ ·)

theorem map_map {α β γ ε} (f : α → β) (g : β → γ) (x : Except ε α) : (x.map f).map g = x.map (fun y => g (f y)) := by
  cases x <;> rfl

theorem map_id' {α ε} (x : Except ε α) (f : α → α) (h : ∀ y, f y = y) : x.map f = x := by
  cases x with
  | error => rfl
  | ok y => simp [Except.map, h]

theorem Sub.nil {f} : Sub f [] [] := by
  intro s; rw [List.nil_append]; exact (map_id' _ _ (by simp)).symm

theorem Sub.append {f a a' b b'} (ha : Sub f a a') (hb : Sub f b b') : Sub f (a ++ b) (a' ++ b') := by
  intro s
  rw [List.append_assoc, ha, hb, map_map]
  congr 1
  funext y
  rw [List.append_assoc]

theorem Sub.char {f} {c : Char} (h : c ≠ '$') : Sub f [c] [c] := by
  intro s
  rw [List.singleton_append, subst_lit f c s (fun e => absurd e h)]
  rfl

theorem Sub.all {f} {t : Text} (h : '$' ∉ t) : Sub f t t := by
  induction t with
  | nil => exact .nil
  | cons c t ih =>
    simp only [List.mem_cons, not_or] at h
    exact Sub.append (.char (fun e => h.1 e.symm)) (ih h.2)

theorem Sub.prefix {f : Text → Option Text} {x : Text} (h : f "prefix".toList = some x) : Sub f "${prefix}".toList x := by
  intro s
  have e : "${prefix}".toList ++ s = '$' :: '{' :: ("prefix".toList ++ ('}' :: s)) := rfl
  rw [e, subst, subst_name f (by decide), subst, if_pos rfl, List.nil_append, h]

theorem Sub.whole {f} {a b : Text} (h : Sub f a b) : subst f none a = .ok b := by
  have := h []
  rw [List.append_nil] at this
  rw [this]
  simp [subst, Except.map]

theorem Safe.dollar {t : Text} (h : Safe t) : '$' ∉ t := fun hc => (h _ hc).2.2.1 rfl
theorem Safe.sub {f} {t : Text} (h : Safe t) : Sub f t t := Sub.all h.dollar

/-! ## Arguments -/

/-- A text that is read as the argument `w` -/
def Reading (t w : Text) : Prop := ∃ ps : List ArgPart, (∀ p ∈ ps, p.ok) ∧ ps.flatMap ArgPart.text = t ∧ ps.flatMap ArgPart.value = w

theorem Reading.append {a b a' b' : Text} (ha : Reading a a') (hb : Reading b b') : Reading (a ++ b) (a' ++ b') := by
  obtain ⟨ps, h1, h2, h3⟩ := ha
  obtain ⟨qs, k1, k2, k3⟩ := hb
  exact ⟨ps ++ qs, by grind, by simp [h2, k2], by simp [h3, k3]⟩

theorem Reading.plain {t : Text} (h : Safe t) (hp : Plain t) : Reading t t := by
  refine ⟨t.map ArgPart.plain, ?_, ?_, ?_⟩
  · intro p hp'
    obtain ⟨c, hc, rfl⟩ := List.mem_map.1 hp'
    obtain ⟨h1, h2, h3, h4, h5, h6⟩ := h c hc
    refine ⟨h5, ?_, fun e => hp.2 (e ▸ hc), h2, h1⟩
    cases hs : isSpace c with
    | false => rfl
    | true => exact absurd (h6 hs ▸ hc) hp.1
  · simp [List.flatMap_map, ArgPart.text]
  · simp [List.flatMap_map, ArgPart.value]

/-- With backslashes -/
def esc (v : Text) : Text := v.flatMap (fun c => if c = '"' ∨ c = '\'' ∨ c = '\\' then ['\\', c] else [c])

theorem esc_append (a b : Text) : esc (a ++ b) = esc a ++ esc b := by simp [esc]
theorem esc_cons (c : Char) (t : Text) : esc (c :: t) = (if c = '"' ∨ c = '\'' ∨ c = '\\' then ['\\', c] else [c]) ++ esc t := by
  simp [esc]

theorem esc_same {v : Text} (h : Safe v) (hq : '"' ∉ v) : esc v = v := by
  induction v with
  | nil => rfl
  | cons c t ih =>
    simp only [List.mem_cons, not_or] at hq
    obtain ⟨h1, h2, -⟩ := h c (by simp)
    rw [esc_cons, ih h.tail hq.2, if_neg]
    · rfl
    · rintro (e | e | e)
      · exact hq.1 e.symm
      · exact h2 e
      · exact h1 e

theorem esc_clean {v : Text} (h : Safe v) : Clean (esc v) := by
  induction v with
  | nil => exact .nil
  | cons c t ih =>
    rw [esc_cons]
    refine Clean.append ?_ (ih h.tail)
    obtain ⟨h1, h2, -⟩ := h c (by simp)
    by_cases hc : c = '"'
    · rw [if_pos (.inl hc), hc]; exact .escaped
    · rw [if_neg (not_or.2 ⟨hc, not_or.2 ⟨h2, h1⟩⟩)]
      exact Clean.char (h.char c (by simp))

theorem esc_dollar {v : Text} (h : '$' ∉ v) : '$' ∉ esc v := by
  induction v with
  | nil => exact h
  | cons c t ih =>
    simp only [List.mem_cons, not_or] at h
    rw [esc_cons]
    intro hm
    rcases List.mem_append.1 hm with hm | hm
    · split at hm
      · simp only [List.mem_cons, List.not_mem_nil, or_false] at hm
        rcases hm with hm | hm
        · cases hm
        · exact h.1 hm
      · simp only [List.mem_cons, List.not_mem_nil, or_false] at hm
        exact h.1 hm
    · exact ih h.2 hm

theorem esc_reading {v : Text} (h : Safe v) : Reading ('"' :: esc v ++ ['"']) v := by
  have : ∃ l : List Quoted, (∀ x ∈ l, x.ok '"') ∧ l.flatMap (Quoted.text '"') = esc v ∧ l.flatMap (Quoted.value '"') = v := by
    induction v with
    | nil => exact ⟨[], by simp, rfl, rfl⟩
    | cons c t ih =>
      obtain ⟨l, h1, h2, h3⟩ := ih h.tail
      obtain ⟨k1, k2, -⟩ := h c (by simp)
      by_cases hc : c = '"'
      · refine ⟨.quote :: l, ?_, ?_, ?_⟩
        · intro x hx
          rcases List.mem_cons.1 hx with rfl | hx
          · trivial
          · exact h1 x hx
        · rw [esc_cons, if_pos (.inl hc), ← h2, hc]; rfl
        · rw [List.flatMap_cons, h3, hc]; rfl
      · refine ⟨.plain c :: l, ?_, ?_, ?_⟩
        · intro x hx
          rcases List.mem_cons.1 hx with rfl | hx
          · exact ⟨hc, k1⟩
          · exact h1 x hx
        · rw [esc_cons, if_neg (not_or.2 ⟨hc, not_or.2 ⟨k2, k1⟩⟩), ← h2]; rfl
        · rw [List.flatMap_cons, h3]; rfl
  obtain ⟨l, h1, h2, h3⟩ := this
  refine ⟨[.quoted '"' l], ?_, ?_, ?_⟩
  · intro p hp
    rcases List.mem_singleton.1 hp with rfl
    exact ⟨.inl rfl, h1⟩
  · simp [ArgPart.text, h2]
  · simp [ArgPart.value, h3]

/-! ## Quoting -/

theorem quote_eq {v : Text} (h : Safe v) : (quote v = v ∧ Plain v) ∨ (quote v = '"' :: esc v ++ ['"'] ∧ ¬ Plain v) := by
  unfold quote
  have h' : '\'' ∉ v := fun hc => (h _ hc).2.1 rfl
  split
  · rename_i hc
    right
    refine ⟨rfl, fun hp => ?_⟩
    simp only [Bool.or_eq_true, List.contains_iff_mem] at hc
    rcases hc with (hc | hc) | hc
    · exact hp.1 hc
    · exact h' hc
    · exact hp.2 hc
  · rename_i hc
    left
    simp only [Bool.or_eq_true, List.contains_iff_mem, not_or] at hc
    exact ⟨rfl, hc.1.1, hc.2⟩

theorem quote_reading {v : Text} (h : Safe v) : Reading (quote v) v := by
  rcases quote_eq h with ⟨e, hp⟩ | ⟨e, -⟩
  · rw [e]; exact .plain h hp
  · rw [e]; exact esc_reading h

theorem prefix_drop {p v : Text} (h : p <+: v) : v = p ++ v.drop p.length := by
  obtain ⟨t, rfl⟩ := h
  simp

theorem replaceFirst_head {p t : Text} (hp : p ≠ []) (new : Text) : replaceFirst p new (p ++ t) = new ++ t := by
  cases p with
  | nil => exact absurd rfl hp
  | cons c p =>
    rw [List.cons_append, replaceFirst, if_pos]
    · rw [← List.cons_append, List.drop_left]
    · rw [← List.cons_append]; simp

/-- The two forms of what is written -/
theorem written_eq {p v : Text} (hs : Safe v) (hp : p ≠ [] → Safe p ∧ '"' ∉ p) :
    quoteAndPrefixify p v = quote v ∨ (p ≠ [] ∧ ∃ r, v = p ++ r ∧
      ((quote v = p ++ r ∧ quoteAndPrefixify p v = "${prefix}".toList ++ r) ∨
       (quote v = ['"'] ++ p ++ (esc r ++ ['"']) ∧ quoteAndPrefixify p v = ['"'] ++ "${prefix}".toList ++ (esc r ++ ['"'])))) := by
  unfold quoteAndPrefixify
  split
  · exact .inl rfl
  · rename_i h
    simp only [not_or, Classical.not_not] at h
    obtain ⟨h0, h1, -⟩ := h
    right
    obtain ⟨hp1, hp2⟩ := hp h0
    unfold startsWith at h1
    rw [List.isPrefixOf_iff_prefix] at h1
    obtain ⟨r, rfl⟩ := h1
    refine ⟨h0, r, rfl, ?_⟩
    rcases quote_eq hs with ⟨e, -⟩ | ⟨e, -⟩
    · left
      refine ⟨e, ?_⟩
      rw [e, replaceFirst_head h0]
    · right
      rw [e, esc_append, esc_same hp1 hp2]
      refine ⟨by simp, ?_⟩
      rw [List.cons_append, replaceFirst, if_neg, List.append_assoc, replaceFirst_head h0]
      · simp
      · cases p with
        | nil => exact absurd rfl h0
        | cons c p =>
          intro hh
          rw [List.isPrefixOf_iff_prefix] at hh
          obtain ⟨t, ht⟩ := hh
          rw [List.cons_append] at ht
          injection ht with hc _
          exact hp2 (by simp [hc])

/-! ## Words of an entry -/

/-- A word that is read as the argument `w` after variables have been replaced, and does not disturb its surroundings -/
structure Word (f : Text → Option Text) (t w : Text) : Prop where
  clean : Clean t
  sub : ∃ u, Sub f t u ∧ Reading u w
  tight : Tight t
  ne : w ≠ []

theorem Tight.ne {t : Text} (h : Tight t) : t ≠ [] := by
  obtain ⟨⟨c, l, rfl, -⟩, -⟩ := h
  simp

theorem Tight.append {a b : Text} (ha : a = [] ∨ ∃ c l, a = c :: l ∧ isSpace c = false) (hb : Tight b) : Tight (a ++ b) := by
  obtain ⟨⟨c, l, hb1, hc⟩, m, d, hb2, hd⟩ := hb
  constructor
  · rcases ha with rfl | ⟨c', l', rfl, hc'⟩
    · exact ⟨c, l, by simpa using hb1, hc⟩
    · exact ⟨c', l' ++ b, by simp, hc'⟩
  · exact ⟨a ++ m, d, by rw [hb2, List.append_assoc], hd⟩

theorem Tight.quoted (t : Text) : Tight ('"' :: t ++ ['"']) :=
  ⟨⟨'"', t ++ ['"'], by simp, by decide⟩, '"' :: t, '"', rfl, by decide⟩

theorem quote_tight {v : Text} (hs : Safe v) (h : Tight v) : Tight (quote v) := by
  rcases quote_eq hs with ⟨e, -⟩ | ⟨e, -⟩
  · rw [e]; exact h
  · rw [e]; exact .quoted _

theorem quote_clean {v : Text} (hs : Safe v) : Clean (quote v) := by
  rcases quote_eq hs with ⟨e, -⟩ | ⟨e, -⟩
  · rw [e]; exact hs.clean
  · rw [e]
    exact Clean.append (Clean.append (a := ['"']) (.char (by decide)) (esc_clean hs)) (.char (by decide))

theorem quote_dollar {v : Text} (hs : Safe v) : '$' ∉ quote v := by
  rcases quote_eq hs with ⟨e, -⟩ | ⟨e, -⟩
  · rw [e]; exact hs.dollar
  · rw [e]
    have := esc_dollar hs.dollar
    simp [this]

theorem last_of_append {a b : Text} (hb : b ≠ []) (h : Tight (a ++ b)) : ∃ l c, b = l ++ [c] ∧ isSpace c = false := by
  obtain ⟨-, m, d, h2, hd⟩ := h
  obtain ⟨l, c, rfl⟩ : ∃ l c, b = l ++ [c] := by
    rcases List.eq_nil_or_concat b with h | ⟨l, c, h⟩
    · exact absurd h hb
    · exact ⟨l, c, by simpa using h⟩
  rw [← List.append_assoc] at h2
  have := List.append_inj' h2 rfl
  simp only [List.cons.injEq, and_true] at this
  exact ⟨l, c, rfl, this.2 ▸ hd⟩

theorem written_word {f : Text → Option Text} {p v : Text} (hs : Safe v) (ht : Tight v) (hp : p ≠ [] → Safe p ∧ '"' ∉ p)
    (hf : p ≠ [] → f "prefix".toList = some p) {o : Text} (ho : Safe o) (hop : Plain o)
    (ho' : o = [] ∨ ∃ c l, o = c :: l ∧ isSpace c = false) : Word f (o ++ quoteAndPrefixify p v) (o ++ v) := by
  have hne : o ++ v ≠ [] := by
    intro e
    exact ht.ne (List.append_eq_nil_iff.1 e).2
  have hpre : Clean "${prefix}".toList := Clean.all (by decide)
  rcases written_eq hs hp with e | ⟨h0, r, rfl, ⟨e1, e2⟩ | ⟨e1, e2⟩⟩
  · rw [e]
    exact ⟨ho.clean.append (quote_clean hs),
      ⟨_, ho.sub.append (Sub.all (quote_dollar hs)), (Reading.plain ho hop).append (quote_reading hs)⟩,
      Tight.append ho' (quote_tight hs ht), hne⟩
  · have hr : Safe r := fun c hc => hs c (by simp [hc])
    rw [e2]
    refine ⟨ho.clean.append (hpre.append hr.clean), ⟨_, ho.sub.append ((Sub.prefix (hf h0)).append hr.sub), ?_⟩, ?_, hne⟩
    · refine (Reading.plain ho hop).append ?_
      have := quote_reading hs
      rwa [e1] at this
    · refine Tight.append ho' ⟨⟨'$', "{prefix}".toList ++ r, rfl, by decide⟩, ?_⟩
      by_cases hr0 : r = []
      · subst hr0; exact ⟨"${prefix".toList, '}', rfl, by decide⟩
      · obtain ⟨l, c, hlc, hc⟩ := last_of_append hr0 ht
        exact ⟨"${prefix}".toList ++ l, c, by rw [hlc, List.append_assoc], hc⟩
  · have hr : Safe r := fun c hc => hs c (by simp [hc])
    rw [e2]
    refine ⟨ho.clean.append (((Clean.char (by decide)).append hpre).append ((esc_clean hr).append (.char (by decide)))),
      ⟨_, ho.sub.append (((Sub.char (c := '"') (by decide)).append (Sub.prefix (hf h0))).append
        ((Sub.all (esc_dollar hr.dollar)).append (Sub.char (c := '"') (by decide)))), ?_⟩, ?_, hne⟩
    · rw [← e1]; exact (Reading.plain ho hop).append (quote_reading hs)
    · refine Tight.append ho' ?_
      have := Tight.quoted ("${prefix}".toList ++ esc r)
      simpa using this

theorem quote_word {f : Text → Option Text} {v : Text} (hs : Safe v) (ht : Tight v) {o : Text} (ho : Safe o) (hop : Plain o)
    (ho' : o = [] ∨ ∃ c l, o = c :: l ∧ isSpace c = false) : Word f (o ++ quote v) (o ++ v) := by
  have := written_word (f := f) (p := []) hs ht (by simp) (by simp) ho hop ho'
  have e : quoteAndPrefixify [] v = quote v := by simp [quoteAndPrefixify]
  rwa [e] at this

/-! ## Entries -/

inductive Words (f : Text → Option Text) : List Text → List Text → Prop
  | nil : Words f [] []
  | cons {t w l m} : Word f t w → Words f l m → Words f (t :: l) (w :: m)

theorem Words.append {f l m l' m'} (h : Words f l m) (h' : Words f l' m') : Words f (l ++ l') (m ++ m') := by
  induction h with
  | nil => exact h'
  | cons hw _ ih => exact .cons hw ih

theorem Words.map {f} {l : List Text} {a b : Text → Text} (h : ∀ x ∈ l, Word f (a x) (b x)) : Words f (l.map a) (l.map b) := by
  induction l with
  | nil => exact .nil
  | cons x l ih => exact .cons (h x (by simp)) (ih (fun y hy => h y (by simp [hy])))

theorem join_clean {f l m} (h : Words f l m) : Clean (join l) := by
  induction h with
  | nil => exact .nil
  | @cons t w l m hw hl ih =>
    cases l with
    | nil => exact hw.clean
    | cons b l => exact hw.clean.append (Clean.append (a := [' ']) (.char (by decide)) ih)

theorem join_tight {f l m} (h : Words f l m) (hne : l ≠ []) : Tight (join l) := by
  induction h with
  | nil => exact absurd rfl hne
  | @cons t w l m hw hl ih =>
    cases l with
    | nil => exact hw.tight
    | cons b l =>
      have := ih (by simp)
      obtain ⟨⟨c, k, rfl, hc⟩, -⟩ := hw.tight
      have e : join ((c :: k) :: b :: l) = (c :: (k ++ [' '])) ++ join (b :: l) := by simp [join]
      rw [e]
      exact Tight.append (.inr ⟨c, _, rfl, hc⟩) this

theorem join_split {f l m} (h : Words f l m) (hne : l ≠ []) :
    ∃ u, Sub f (join l) u ∧ split u = some m ∧ u ≠ [] := by
  have : ∃ (as : List Arg) (last : List ArgPart) (ws : List Text) (w : Text), (∀ a ∈ as, a.ok) ∧ (∀ p ∈ last, p.ok) ∧
      Sub f (join l) (as.flatMap Arg.text ++ last.flatMap ArgPart.text) ∧ as.map Arg.value = ws ∧ last.flatMap ArgPart.value = w ∧
      m = ws ++ [w] ∧ (∀ x ∈ m, x ≠ []) := by
    induction h with
    | nil => exact absurd rfl hne
    | @cons t w l m hw hl ih =>
      obtain ⟨u, hu, ps, h1, h2, h3⟩ := hw.sub
      cases l with
      | nil =>
        cases hl
        exact ⟨[], ps, [], w, by simp, h1, by rw [h2]; exact hu, rfl, h3, rfl, by simpa using hw.ne⟩
      | cons b l =>
        obtain ⟨as, last, ws, x, k1, k2, k3, k4, k5, k6, k7⟩ := ih (by simp)
        refine ⟨⟨ps, [' ']⟩ :: as, last, w :: ws, x, ?_, k2, ?_, ?_, k5, ?_, ?_⟩
        · intro a ha
          rcases List.mem_cons.1 ha with rfl | ha
          · exact ⟨h1, by simp, by simp [isSpace]⟩
          · exact k1 a ha
        · have e : (⟨ps, [' ']⟩ :: as : List Arg).flatMap Arg.text ++ last.flatMap ArgPart.text =
              u ++ ([' '] ++ (as.flatMap Arg.text ++ last.flatMap ArgPart.text)) := by
            simp [Arg.text, h2]
          rw [e]
          exact hu.append (Sub.append (a := [' ']) (.char (by decide)) k3)
        · simp [Arg.value, h3, k4]
        · rw [k6]; rfl
        · intro y hy
          rcases List.mem_cons.1 hy with rfl | hy
          · exact hw.ne
          · exact k7 y hy
  obtain ⟨as, last, ws, w, h1, h2, h3, h4, h5, h6, h7⟩ := this
  have hs := split_argsText (lead := []) (tail := .done) (by simp) h1 h2 trivial
  have e : argsText [] as last .done = as.flatMap Arg.text ++ last.flatMap ArgPart.text := by simp [argsText, Tail.text]
  rw [e] at hs
  have hm : split (as.flatMap Arg.text ++ last.flatMap ArgPart.text) = some m := by
    rw [hs, h4, h5, h6]
    simp only [Tail.value, Option.map_some, List.append_nil, Option.some.injEq]
    rw [← h6]
    exact List.filter_eq_self.2 (fun x hx => by simpa using h7 x hx)
  refine ⟨_, h3, hm, ?_⟩
  intro e0
  rw [e0] at hm
  have : split [] = some [] := by decide
  rw [this] at hm
  rw [h6] at hm
  simp at hm

end Verif.PcExport
