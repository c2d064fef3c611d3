import Verif.Cpp.Lines
/-!
# C58, C59: the whole file
-/
namespace Verif.Cpp

/-- The results so far -/
structure R (res : Result) (incs : List (Bool × Str)) (m : Modules) : Prop where
  includes : res.includes = incs
  part : res.part = m.full
  provides : res.provides = m.provides
  isInterface : res.isInterface = m.isInterface
  needs : res.requiresModules = m.needs
  noOwn : m.own = none → m.full = []
  own : ∀ x, m.own = some x → m.full ≠ [] ∧ m.full.takeWhile (· ≠ ':') = x

/-- A token that the scanner takes no notice of, but perhaps for moc -/
def Dull (tk : Tok) : Prop :=
  tk.kind ≠ .eof ∧ ¬ (tk.newline = true ∧ tk.kind = .pound) ∧
  ¬ (tk.newline = true ∧ tk.kind = .ident ∧
    (tk.text = "module".toList ∨ tk.text = "import".toList ∨ tk.text = "export".toList))

theorem dull_mid {tk : Tok} (h1 : tk.kind ≠ .eof) (h2 : tk.newline = false) : Dull tk :=
  ⟨h1, by simp [h2], by simp [h2]⟩

def Final (o : Opts) (incs : List (Bool × Str)) (m : Modules) (ls : List Line) (r : Result) : Prop :=
  R r (incs ++ ls.filterMap Line.included) (ls.foldl (Modules.add o.cppm) m)

/-- After such a token -/
def Good (o : Opts) (n : Nat) : Prop :=
  ∀ (s : St) (es : List Elem) (c : Option (List Part)) (ls : List Line) (p : Option Char) (res : Result)
    (incs : List (Bool × Str)) (m : Modules) (r : Result),
    Dull s.tk → s.rest = elemsText es ++ (commentText c ++ tailText ls) → Ok (commentText c ++ tailText ls) p es →
    CommentOk c → (∀ l ∈ ls, l.Ok o.reserved) → R res incs m → loop o n s res = some r → Final o incs m ls r

/-- Before any token in a line -/
def Mid (o : Opts) (n : Nat) : Prop :=
  ∀ (old : Tok) (es : List Elem) (c : Option (List Part)) (ls : List Line) (p : Option Char) (res : Result)
    (incs : List (Bool × Str)) (m : Modules) (r : Result),
    Ok (commentText c ++ tailText ls) p es →
    CommentOk c → (∀ l ∈ ls, l.Ok o.reserved) → R res incs m →
    loop o n ⟨old, (scan o.reserved false (elemsText es ++ (commentText c ++ tailText ls))).1,
      (scan o.reserved false (elemsText es ++ (commentText c ++ tailText ls))).2⟩ res = some r → Final o incs m ls r

/-- At the beginning of a line -/
def Start (o : Opts) (n : Nat) : Prop :=
  ∀ (ls : List Line) (l : Line) (old : Tok) (res : Result) (incs : List (Bool × Str)) (m : Modules) (r : Result),
    (∀ x ∈ l :: ls, x.Ok o.reserved) → R res incs m →
    loop o n ⟨old, (scanFrom o.reserved false true (l.text ++ tailText ls)).1,
      (scanFrom o.reserved false true (l.text ++ tailText ls)).2⟩ res = some r → Final o incs m (l :: ls) r

theorem R_macros {o : Opts} {s : St} {res : Result} {incs : List (Bool × Str)} {m : Modules} (h : R res incs m) :
    R (macros o s res).1 incs m := by
  obtain ⟨h1, h2, h3, h4, h5, h6, h7⟩ := h
  unfold macros
  split
  · simp only
    split
    · exact ⟨h1, h2, h3, h4, h5, h6, h7⟩
    · split <;> exact ⟨h1, h2, h3, h4, h5, h6, h7⟩
  · exact ⟨h1, h2, h3, h4, h5, h6, h7⟩

theorem macros_go {o : Opts} (hd : o.deps = true) (s : St) (res : Result) : (macros o s res).2 = false := by
  unfold macros
  split
  · simp only
    rw [hd]
    rfl
  · rfl

theorem loop_pound (o : Opts) (n : Nat) (s : St) (res : Result) (h1 : s.tk.newline = true) (h2 : s.tk.kind = .pound) :
    loop o (n + 1) s res = loop o n ((directive o s res).1.step o) (directive o s res).2 := by
  rw [loop, if_neg (by rw [h2]; exact Kind.noConfusion), if_neg (by rw [h2]; rintro ⟨-, -, h, -⟩; exact Kind.noConfusion h)]
  simp only
  unfold rest
  simp only [h1, h2, and_self, if_true]
  rfl

/-- A token that is not first in a directive -/
theorem rest_dull {o : Opts} (hd : o.deps = true) {s : St} {res : Result} {incs : List (Bool × Str)} {m : Modules} (h : R res incs m)
    (hs : ¬ (s.tk.newline = true ∧ s.tk.kind = .pound)) :
    (rest o s res).1 = s.step o ∧ R (rest o s res).2.1 incs m ∧ (rest o s res).2.2 = false := by
  unfold rest
  rw [if_neg hs]
  split
  · exact ⟨rfl, R_macros h, macros_go hd s res⟩
  · exact ⟨rfl, h, rfl⟩

theorem good_step (o : Opts) (hd : o.deps = true) (n : Nat) (hm : Mid o n) : Good o (n + 1) := by
  intro s es c ls p res incs m r hdull hr hok hc hls hR h
  obtain ⟨d1, d2, d3⟩ := hdull
  unfold loop at h
  rw [if_neg d1, if_neg (fun hh => d3 ⟨hh.2.1, hh.2.2.1, hh.2.2.2⟩)] at h
  obtain ⟨r1, r2, r3⟩ := rest_dull hd hR d2
  simp only [r3] at h
  rw [if_neg (by simp), r1] at h
  have : s.step o = ⟨s.tk, (scan o.reserved false (elemsText es ++ (commentText c ++ tailText ls))).1,
      (scan o.reserved false (elemsText es ++ (commentText c ++ tailText ls))).2⟩ := by
    unfold St.step; rw [hr]
  rw [this] at h
  exact hm _ es c ls p _ incs m r hok hc hls r2 h

theorem final_nil {o : Opts} {incs : List (Bool × Str)} {m : Modules} {r : Result} (h : R r incs m) : Final o incs m [] r := by
  unfold Final
  simpa using h

/-- After the last token of a line -/
theorem eol_step (o : Opts) (n : Nat) (nl : Bool) (c : Option (List Part)) (hc : CommentOk c) (ls : List Line)
    (hst : ∀ l ls', ls = l :: ls' → ∀ (old : Tok) (res : Result) (incs : List (Bool × Str)) (m : Modules) (r : Result), R res incs m →
      loop o n ⟨old, (scanFrom o.reserved false true (l.text ++ tailText ls')).1,
        (scanFrom o.reserved false true (l.text ++ tailText ls')).2⟩ res = some r → Final o incs m ls r)
    (old : Tok) (res : Result) (incs : List (Bool × Str)) (m : Modules) (r : Result) (hR : R res incs m)
    (h : loop o n ⟨old, (scanFrom o.reserved false nl (commentText c ++ tailText ls)).1,
      (scanFrom o.reserved false nl (commentText c ++ tailText ls)).2⟩ res = some r) : Final o incs m ls r := by
  obtain ⟨e1, e2⟩ := scanFrom_eol o.reserved nl c hc
  cases ls with
  | nil =>
    cases n with
    | zero => cases h
    | succ n =>
      unfold loop at h
      rw [if_pos e2] at h
      rw [← Option.some.inj h]
      exact final_nil hR
  | cons l ls =>
    rw [e1] at h
    exact hst l ls rfl old res incs m r hR h

theorem mid_step (o : Opts) (n : Nat) (hg : Good o n) (hst : Start o n) : Mid o n := by
  intro old es c ls p res incs m r hok hc hls hR h
  obtain ⟨gs, rest, p', h1, h2, h3, h4, h5⟩ := split_gaps es p hok
  rw [h1, List.append_assoc, scan_gaps _ _ _ _ h2] at h
  rcases h5 with rfl | ⟨x, es', rfl, hx⟩
  · refine eol_step o n false c hc ls ?_ old res incs m r hR h
    intro l ls' e old res incs m r hR h
    rw [e] at hls ⊢
    exact hst ls' l old res incs m r hls hR h
  · obtain ⟨tk, es2, p2, e1, e2⟩ := firstTok o.reserved (after_ok c ls) h3 hx
    rw [scan_eq, e1] at h
    exact hg _ es2 c ls p2 res incs m r (dull_mid e2.notEof rfl) rfl e2.ok hc hls hR h

/-! ## Lines -/

theorem add_none {cppm : Bool} {m : Modules} {l : Line} (h1 : l.declares = none) (h2 : ∀ x, l.imports x = none) : m.add cppm l = m := by
  unfold Modules.add
  rw [h1, h2]
  simp

theorem final_skip {o : Opts} {incs : List (Bool × Str)} {m : Modules} {l : Line} {ls : List Line} {r : Result}
    (h0 : l.included = none) (h1 : l.declares = none) (h2 : ∀ x, l.imports x = none) (h : Final o incs m ls r) :
    Final o incs m (l :: ls) r := by
  unfold Final at h ⊢
  simp only [List.filterMap_cons, h0, List.foldl_cons, add_none h1 h2]
  exact h

theorem code_line (o : Opts) (n : Nat) (hg : Good o n) (es : List Elem) (c : Option (List Part)) (ls : List Line)
    (hst : ∀ l ls', ls = l :: ls' → ∀ (old : Tok) (res : Result) (incs : List (Bool × Str)) (m : Modules) (r : Result), R res incs m →
      loop o n ⟨old, (scanFrom o.reserved false true (l.text ++ tailText ls')).1,
        (scanFrom o.reserved false true (l.text ++ tailText ls')).2⟩ res = some r → Final o incs m ls r)
    (hls : ∀ l ∈ ls, l.Ok o.reserved)
    (hl : (Line.code es c).Ok o.reserved) (old : Tok) (res : Result) (incs : List (Bool × Str)) (m : Modules) (r : Result) (hR : R res incs m)
    (h : loop o n ⟨old, (scanFrom o.reserved false true ((Line.code es c).text ++ tailText ls)).1,
      (scanFrom o.reserved false true ((Line.code es c).text ++ tailText ls)).2⟩ res = some r) : Final o incs m ls r := by
  obtain ⟨hok, hc, l1, l2, l3, l4⟩ := hl
  have hok' := ok_after (tail_begin ls) es none hok
  obtain ⟨gs, rest, p', h1, h2, h3, h4, h5⟩ := split_gaps es none hok'
  have et : (Line.code es c).text ++ tailText ls = gapsText gs ++ (elemsText rest ++ (commentText c ++ tailText ls)) := by
    simp [Line.text, h1]
  obtain ⟨nl', s1, -, -⟩ := scanFrom_gaps o.reserved false true gs (elemsText rest ++ (commentText c ++ tailText ls)) h2
  rw [et, s1] at h
  rcases h5 with rfl | ⟨x, es', rfl, hx⟩
  · exact eol_step o n nl' c hc ls hst old res incs m r hR h
  · obtain ⟨tk, es2, p2, e1, e2⟩ := firstTok o.reserved (after_ok c ls) h3 hx
    rw [e1] at h
    rw [h4] at l1 l2 l3 l4
    refine hg _ es2 c ls p2 res incs m r ⟨e2.notEof, ?_, ?_⟩ rfl e2.ok hc hls hR h
    · rintro ⟨-, hk⟩
      rcases e2.pound hk with hh | hh
      · exact l1 hh
      · exact l2 hh
    · rintro ⟨-, hk, ht⟩
      have := e2.ident hk l3
      apply l4
      rw [← this]
      rcases ht with ht | ht | ht <;> (simp only at ht; rw [ht]; simp)

theorem scanFrom_pound {f : Str → Bool} {nl di : Bool} {t : List Cp} (h : peek t ≠ (if di then '%' else '#')) :
    (scanFrom f false nl (pound di ++ t)).1.newline = nl ∧ (scanFrom f false nl (pound di ++ t)).1.kind = .pound ∧
      (scanFrom f false nl (pound di ++ t)).2 = t := by
  cases di with
  | false => exact scanFrom_punct (.inr (.inr (.inr (.inl ⟨rfl, rfl, h⟩))))
  | true =>
    have hl : lexOne f false (ch '%') (ch ':' :: t) = (.pound, t) := by
      cases t with
      | nil => rfl
      | cons v t =>
        have h' : v.1 ≠ '%' := h
        simp (config := { decide := true }) [lexOne, ch, peek, lexOp, ops, identChar, List.find?_cons, List.isPrefixOf, List.isPrefixOf_cons₂, Ne.symm, *]
    show (scanFrom f false nl (ch '%' :: ch ':' :: t)).1.newline = nl ∧ (scanFrom f false nl (ch '%' :: ch ':' :: t)).1.kind = .pound ∧
      (scanFrom f false nl (ch '%' :: ch ':' :: t)).2 = t
    rw [scanFrom_stay (skip_stay nl (ch '%') (ch ':' :: t) (by decide) (by decide) (fun h => absurd h (by decide)))]
    unfold lexAt
    simp only [hl, and_self]

/-- After `#`, a directive that is of no interest -/
theorem directive_line (o : Opts) (n : Nat) (hm : Mid o n) (lead : List Gap) (di : Bool) (g1 : List Gap) (es : List Elem) (c : Option (List Part)) (ls : List Line)
    (hls : ∀ l ∈ ls, l.Ok o.reserved)
    (hl : (Line.directive lead di g1 es c).Ok o.reserved) (old : Tok) (res : Result) (incs : List (Bool × Str)) (m : Modules) (r : Result) (hR : R res incs m)
    (h : loop o (n + 1) ⟨old, (scanFrom o.reserved false true ((Line.directive lead di g1 es c).text ++ tailText ls)).1,
      (scanFrom o.reserved false true ((Line.directive lead di g1 es c).text ++ tailText ls)).2⟩ res = some r) : Final o incs m ls r := by
  obtain ⟨hlead, hg1, hok, hne, hp, hlen, hw, hc⟩ := hl
  have hok' := ok_after (tail_begin ls) es none hok
  obtain ⟨gs, rest, p', h1, h2, h3, h4, h5⟩ := split_gaps es none hok'
  have et : (Line.directive lead di g1 es c).text ++ tailText ls =
      gapsText lead ++ (pound di ++ (gapsText g1 ++ (gapsText gs ++ (elemsText rest ++ (commentText c ++ tailText ls))))) := by
    simp [Line.text, h1]
  rw [et, scanFrom_lead _ _ _ _ _ hlead] at h
  rw [h4] at hne hlen hw
  rcases h5 with rfl | ⟨x, es', rfl, hx⟩
  · exact absurd rfl hne
  have hp' : peek (gapsText g1 ++ (gapsText gs ++ (elemsText (x :: es') ++ (commentText c ++ tailText ls)))) ≠ (if di then '%' else '#') := by
    rw [h1] at hp
    have : gapsText g1 ++ (gapsText gs ++ (elemsText (x :: es') ++ (commentText c ++ tailText ls))) =
      (gapsText g1 ++ (gapsText gs ++ elemsText (x :: es'))) ++ (commentText c ++ tailText ls) := by simp
    rw [this]
    cases hx' : gapsText g1 ++ (gapsText gs ++ elemsText (x :: es')) with
    | nil => simp at hx'; exact absurd hx'.2.2 hne
    | cons v y => rw [hx'] at hp; exact hp
  obtain ⟨k1, k2, k3⟩ := scanFrom_pound (f := o.reserved) (nl := true) hp'
  obtain ⟨tk, es2, p2, e1, e2⟩ := firstTok o.reserved (after_ok c ls) h3 hx
  have hscan : scan o.reserved false (gapsText g1 ++ (gapsText gs ++ (elemsText (x :: es') ++ (commentText c ++ tailText ls)))) =
      ({ tk with newline := false }, elemsText es2 ++ (commentText c ++ tailText ls)) := by
    rw [scan_gaps _ _ _ _ hg1, scan_gaps _ _ _ _ h2, scan_eq, e1]
  rw [loop_pound o n _ _ k1 k2] at h
  unfold directive at h
  simp only [k3, hscan] at h
  rw [if_neg] at h
  · exact hm _ es2 c ls p2 res incs m r e2.ok hc hls hR h
  · rintro ⟨-, -, hk, ht⟩
    have := e2.ident hk hlen
    apply hw
    rw [← this]
    rcases ht with ht | ht <;> rw [ht] <;> simp

theorem bytes_append (a b : List Cp) : bytes (a ++ b) = bytes a ++ bytes b := by simp [bytes]

/-- The name after `#include` -/
theorem name_scan (f : Str → Bool) (q : Bool) (name t : List Cp)
    (hn : ∀ u ∈ name, u.1 ≠ '\n' ∧ (if q then u.1 ≠ '"' ∧ u.1 ≠ '\\' else u.1 ≠ '>')) (hl : (bytes name).length < 65534) :
    (scan f true (ch (if q then '"' else '<') :: (name ++ ch (if q then '"' else '>') :: t))).1.newline = false ∧
    (scan f true (ch (if q then '"' else '<') :: (name ++ ch (if q then '"' else '>') :: t))).1.kind = (if q then .string else .angle) ∧
    inner (scan f true (ch (if q then '"' else '<') :: (name ++ ch (if q then '"' else '>') :: t))).1 = bytes name ∧
    (scan f true (ch (if q then '"' else '<') :: (name ++ ch (if q then '"' else '>') :: t))).2 = t := by
  have hlex : lexOne f true (ch (if q then '"' else '<')) (name ++ ch (if q then '"' else '>') :: t) =
      (if q then .string else .angle, t) := by
    cases q with
    | true =>
      have h1 := literal_rest '"' (.inl rfl) (name.map .ch) t (by
        intro p hp
        obtain ⟨u, hu, rfl⟩ := List.mem_map.1 hp
        obtain ⟨h1, h2⟩ := hn u hu
        simp only [if_true] at h2
        exact ⟨h1, h2.2, by simpa using h2.1⟩)
      have h2 : partsText (name.map .ch) = name := by
        clear hn hl h1
        induction name with
        | nil => rfl
        | cons u n ih => simp only [List.map_cons, partsText, List.flatMap_cons, Part.text] at ih ⊢; rw [ih]; rfl
      rw [h2] at h1
      unfold lexOne
      simp only [if_true]
      rw [if_pos (by rfl)]
      rw [h1]
    | false =>
      have h1 : (name ++ ch '>' :: t).dropWhile (fun v => decide (v.1 ≠ '>')) = ch '>' :: t := by
        clear hl
        induction name with
        | nil => simp [ch]
        | cons u n ih =>
          have hu := (hn u (by simp)).2
          rw [if_neg (by simp)] at hu
          rw [List.cons_append, List.dropWhile_cons_of_pos (by simp [hu])]
          exact ih (fun v hv => hn v (by simp [hv]))
      unfold lexOne
      rw [if_neg (by decide), if_neg (by decide), if_neg (by simp [ch]), if_pos (by simp [ch])]
      simp only [Bool.false_eq_true, if_false]
      rw [h1]
      rfl
  have hb : bytes (ch (if q then '"' else '<') :: (name ++ [ch (if q then '"' else '>')])) =
      (if q then '"' else '<') :: (bytes name ++ [if q then '"' else '>']) := by
    cases q <;> simp [bytes, ch]
  have hs : skip (.ws false) false (ch (if q then '"' else '<') :: (name ++ ch (if q then '"' else '>') :: t)) =
      (false, ch (if q then '"' else '<') :: (name ++ ch (if q then '"' else '>') :: t)) := by
    cases q <;> exact skip_stay false _ _ (by decide) (by decide) (fun h => absurd h (by decide))
  rw [scan_eq, scanFrom_stay hs, lexAt_short (m := name ++ [ch (if q then '"' else '>')]) (by rw [hlex]; simp)
    (by rw [hb]; simp; omega), hlex]
  refine ⟨rfl, rfl, ?_, rfl⟩
  unfold inner
  simp only [hb]
  rw [if_pos (by simp)]
  have : ((if q = true then '"' else '<') :: (bytes name ++ [if q = true then '"' else '>'])).length - 2 = (bytes name).length := by simp
  rw [this]
  simp

theorem incl_line (o : Opts) (hd : o.deps = true) (hw : WordsOk o.reserved) (n : Nat) (hm : Mid o n) (lead : List Gap) (di : Bool) (g1 : List Gap) (imp : Bool) (g2 : List Gap) (q : Bool)
    (name : List Cp) (es : List Elem) (c : Option (List Part)) (ls : List Line)
    (hls : ∀ l ∈ ls, l.Ok o.reserved)
    (hl : (Line.incl lead di g1 imp g2 q name es c).Ok o.reserved) (old : Tok) (res : Result) (incs : List (Bool × Str)) (m : Modules) (r : Result) (hR : R res incs m)
    (h : loop o (n + 1) ⟨old, (scanFrom o.reserved false true ((Line.incl lead di g1 imp g2 q name es c).text ++ tailText ls)).1,
      (scanFrom o.reserved false true ((Line.incl lead di g1 imp g2 q name es c).text ++ tailText ls)).2⟩ res = some r) :
    Final o (incs ++ [(q, bytes name)]) m ls r := by
  obtain ⟨hlead, hg1, hg2, hname, hlen, hok, hc⟩ := hl
  have hok' := ok_after (tail_begin ls) es none hok
  have et : (Line.incl lead di g1 imp g2 q name es c).text ++ tailText ls =
      gapsText lead ++ (pound di ++ (gapsText g1 ++ (word (if imp then "import" else "include") ++ (gapsText g2 ++
        ch (if q then '"' else '<') :: (name ++ ch (if q then '"' else '>') :: (elemsText es ++ (commentText c ++ tailText ls))))))) := by
    simp [Line.text]
  rw [et, scanFrom_lead _ _ _ _ _ hlead] at h
  generalize hx : ch (if q then '"' else '<') :: (name ++ ch (if q then '"' else '>') :: (elemsText es ++ (commentText c ++ tailText ls))) = x at h
  have hni : NoIdent (gapsText g2 ++ x) := by
    refine noIdent_gaps hg2 (fun _ => .inr ⟨ch (if q then '"' else '<'), _, hx.symm, ?_⟩)
    cases q <;> decide
  have hkw := scanFrom_keyword (f := o.reserved) (nl := false) (s := if imp then "import" else "include") (t := gapsText g2 ++ x)
    (by cases imp <;> simp) (by cases imp; exact hw.incl; exact hw.impt) hni
  have hp' : peek (gapsText g1 ++ (word (if imp then "import" else "include") ++ (gapsText g2 ++ x))) ≠ (if di then '%' else '#') := by
    rcases gaps_begin hg1 (word (if imp then "import" else "include") ++ (gapsText g2 ++ x)) with rfl | ⟨u, y, e, hu⟩
    · cases imp
      · show 'i' ≠ _; cases di <;> decide
      · show 'i' ≠ _; cases di <;> decide
    · rw [e]; intro e'; have := (space_ne hu).1; rw [show u.1 = (if di then '%' else '#') from e'] at this; cases di <;> exact this (by decide)
  obtain ⟨k1, k2, k3⟩ := scanFrom_pound (f := o.reserved) (nl := true) hp'
  have hscan := scan_gaps o.reserved false g1 (word (if imp then "import" else "include") ++ (gapsText g2 ++ x)) hg1
  rw [scan_eq _ _ (word _ ++ _), hkw] at hscan
  obtain ⟨n1, n2, n3, n4⟩ := name_scan o.reserved q name (elemsText es ++ (commentText c ++ tailText ls)) hname hlen
  rw [hx, ← scan_gaps o.reserved true g2 x hg2] at n1 n2 n3 n4
  rw [loop_pound o n _ _ k1 k2] at h
  unfold directive at h
  simp only [k3, hscan] at h
  rw [if_pos ⟨hd, trivial, trivial, by cases imp <;> simp⟩] at h
  rw [if_pos ⟨n1, by rw [n2]; cases q <;> simp⟩] at h
  simp only [n3] at h
  have hk : decide ((scan o.reserved true (gapsText g2 ++ x)).1.kind = .string) = q := by
    rw [n2]; cases q <;> rfl
  rw [hk] at h
  have : St.step o ⟨old, (scan o.reserved true (gapsText g2 ++ x)).1, (scan o.reserved true (gapsText g2 ++ x)).2⟩ =
      ⟨(scan o.reserved true (gapsText g2 ++ x)).1, (scan o.reserved false (elemsText es ++ (commentText c ++ tailText ls))).1,
        (scan o.reserved false (elemsText es ++ (commentText c ++ tailText ls))).2⟩ := by
    unfold St.step; simp only [n4]
  rw [this] at h
  refine hm _ es c ls none _ _ m r hok' hc hls ?_ h
  exact ⟨by simp only [hR.includes], hR.part, hR.provides, hR.isInterface, hR.needs, hR.noOwn, hR.own⟩

end Verif.Cpp
