import Verif.Version.Spec

/-! # C02, C03: versions and version ranges -/

namespace Verif.Version

open Verif.Digits

theorem lt_iff (l r : Version) : lt l r = true ↔ LexLt l r := by
  simp only [lt, compare, LexLt]
  grind

theorem gt_iff (l r : Version) : gt l r = true ↔ LexLt r l := by
  simp only [gt, compare, LexLt]
  grind

theorem eq_iff (l r : Version) : eq l r = true ↔ l = r := by
  obtain ⟨a, b, c, d⟩ := l
  obtain ⟨a', b', c', d'⟩ := r
  simp only [eq, compare, beq_iff_eq, Version.mk.injEq]
  grind

/-- C02, order.  `compare` is the lexicographic order on (major, minor, patch, build), which is a
strict total order: irreflexive, transitive and total; `==` is equality of the components and the
derived operators are consistent with it. -/
theorem C02_compare_total_order (a b c : Version) :
    (lt a b = true ↔ LexLt a b) ∧
    (lt a a = false) ∧
    (lt a b = true → lt b c = true → lt a c = true) ∧
    (lt a b = true ∨ a = b ∨ lt b a = true) ∧
    (eq a b = true ↔ a = b) ∧
    (gt a b = lt b a) ∧ (le a b = true ↔ lt a b = true ∨ a = b) ∧
    (ge a b = le b a) ∧ compare a b = - compare b a := by
  have tot : LexLt a b ∨ a = b ∨ LexLt b a := by
    obtain ⟨a1, a2, a3, a4⟩ := a
    obtain ⟨b1, b2, b3, b4⟩ := b
    simp only [LexLt, Version.mk.injEq]; omega
  have hgt : ∀ x y : Version, gt x y = lt y x := fun x y => by
    rw [Bool.eq_iff_iff, gt_iff, lt_iff]
  have irr : ∀ x : Version, ¬ LexLt x x := fun x => by simp only [LexLt]; omega
  have asym : ∀ x y : Version, LexLt x y → ¬ LexLt y x := fun x y => by simp only [LexLt]; omega
  refine ⟨lt_iff a b, ?_, ?_, ?_, eq_iff a b, hgt a b, ?_, ?_, ?_⟩
  · rw [Bool.eq_false_iff, ne_eq, lt_iff]; exact irr a
  · rw [lt_iff, lt_iff, lt_iff]; simp only [LexLt]; omega
  · rw [lt_iff, lt_iff]; exact tot
  · rw [le, Bool.not_eq_true', Bool.eq_false_iff, ne_eq, gt_iff, lt_iff]
    rcases tot with h | h | h
    · exact ⟨fun _ => Or.inl h, fun _ => asym a b h⟩
    · exact ⟨fun _ => Or.inr h, fun _ => h ▸ irr a⟩
    · refine ⟨fun h' => absurd h h', ?_⟩
      rintro (h' | rfl)
      · exact absurd h' (asym b a h)
      · exact absurd h (irr _)
  · simp only [ge, le, hgt]
  · simp only [compare]
    grind

example : lt ⟨1, 2, 3, 0⟩ ⟨1, 10, 0, 0⟩ = true := by decide

theorem optGroup_ne_digit (seps s : List Char) (hs : ∀ c ∈ seps, c.isDigit = false)
    (h : ∀ c cs, s = c :: cs → c.isDigit = false) :
    ∀ c cs, (optGroup seps s).2 = c :: cs → c.isDigit = false := by
  unfold optGroup
  split
  · split
    · exact spanDigits_snd _
    · exact h
  · simp

theorem optGroup_app (seps g rest : List Char) (c : Char) (hc : c ∈ seps) (hg : IsNum g)
    (hr : ∀ c cs, rest = c :: cs → c.isDigit = false) :
    optGroup seps (c :: (g ++ rest)) = (g, rest) := by
  simp [optGroup, hc, spanDigits_append g rest hg.2 hr, hg.1]

/-- The parser finds a match iff one exists; groups 2 and 3 are filled greedily. -/
theorem optGroup_spec (seps s : List Char) :
    ∃ t, OptGroup seps (optGroup seps s).1 t ∧ t ++ (optGroup seps s).2 = s := by
  unfold optGroup
  split
  · rename_i c cs
    split
    · rename_i h
      exact ⟨c :: (spanDigits cs).1, Or.inr ⟨⟨h.2, spanDigits_fst cs⟩, c, h.1, rfl⟩,
        by simp [spanDigits_eq]⟩
    · exact ⟨[], Or.inl ⟨rfl, rfl⟩, rfl⟩
  · exact ⟨[], Or.inl ⟨rfl, rfl⟩, rfl⟩

theorem numberInt_isNum {i : Int} (h : 0 ≤ i) :
    IsNum (numberInt i) ∧ (i ≤ intMax → toInt (numberInt i) = i) := by
  cases i with
  | ofNat n =>
    refine ⟨⟨number_ne_nil n, number_isDigit n⟩, fun h => ?_⟩
    have : n ≤ intMax := Int.ofNat_le.mp h
    simp [toInt, numberInt, value_number, this]
  | negSucc n => omega

/-- C02, printing and parsing.  Every version with components in the `int` range is read back
unchanged from its printed form, with either build separator; if build numbers are not allowed
this holds for versions without one, and a printed build number makes the string invalid. -/
theorem C02_parse_print (v : Version) (h : v.Wf) :
    fromString (toString v) true = v ∧ fromString (toString v '.' '.') true = v ∧
    (v.build = 0 → fromString (toString v) false = v) ∧
    (v.build ≠ 0 → fromString (toString v) false = {}) := by
  obtain ⟨h1, h1', h2, h2', h3, h3', h4, h4'⟩ := h
  obtain ⟨n1, t1⟩ := numberInt_isNum h1
  obtain ⟨n2, t2⟩ := numberInt_isNum h2
  obtain ⟨n3, t3⟩ := numberInt_isNum h3
  obtain ⟨n4, t4⟩ := numberInt_isNum h4
  have e0 : toInt [] = 0 := by decide
  have dot : ∀ r : List Char, ∀ c cs, '.' :: r = c :: cs → c.isDigit = false := by
    intro r c cs h; simp at h; rw [← h.1]; decide
  have dash : ∀ r : List Char, ∀ c cs, '-' :: r = c :: cs → c.isDigit = false := by
    intro r c cs h; simp at h; rw [← h.1]; decide
  have nil : ∀ c cs, ([] : List Char) = c :: cs → c.isDigit = false := by simp
  have g4nil : ∀ seps, optGroup seps [] = ([], []) := fun _ => rfl
  have build : ∀ (sp : Char), sp = '-' ∨ sp = '.' → v.build ≠ 0 →
      fromString (toString v '.' sp) true = v := by
    intro sp hsp hb
    have hspd : ∀ r : List Char, ∀ c cs, sp :: r = c :: cs → c.isDigit = false := by
      rcases hsp with rfl | rfl
      · exact dash
      · exact dot
    simp only [toString, ne_eq, hb, not_false_eq_true, if_true, fromString]
    rw [spanDigits_append _ _ n1.2 (dot _)]
    simp only [n1.1, if_false]
    rw [optGroup_app _ _ _ '.' (by simp) n2 (dot _)]
    simp only
    rw [optGroup_app _ _ _ '.' (by simp) n3 (hspd _)]
    simp only
    have := optGroup_app ['-', '.'] (numberInt v.build) [] sp (by simp [hsp]) n4 nil
    rw [List.append_nil] at this
    rw [this]
    simp only [if_true, t1 h1', t2 h2', t3 h3', t4 h4']
  have nobuild : ∀ (sp : Char) (allow : Bool), v.build = 0 →
      fromString (toString v '.' sp) allow = v := by
    intro sp allow hb
    simp only [toString, hb, ne_eq, not_true, if_false, fromString]
    rw [spanDigits_append _ _ n1.2 (dot _)]
    simp only [n1.1, if_false]
    rw [optGroup_app _ _ _ '.' (by simp) n2 (dot _)]
    simp only
    have := optGroup_app ['.'] (numberInt v.patch) [] '.' (by simp) n3 nil
    rw [List.append_nil] at this
    rw [this]
    have hv : v = ⟨v.major, v.minor, v.patch, 0⟩ := by rw [← hb]
    cases allow
    · simp only [Bool.false_eq_true, if_false, if_true, t1 h1', t2 h2', t3 h3', e0]; exact hv.symm
    · simp only [if_true, g4nil, t1 h1', t2 h2', t3 h3', e0]; exact hv.symm
  refine ⟨?_, ?_, nobuild '-' false, ?_⟩
  · by_cases hb : v.build = 0
    · exact nobuild '-' true hb
    · exact build '-' (Or.inl rfl) hb
  · by_cases hb : v.build = 0
    · exact nobuild '.' true hb
    · exact build '.' (Or.inr rfl) hb
  · intro hb
    simp only [toString, ne_eq, hb, not_false_eq_true, if_true, fromString]
    rw [spanDigits_append _ _ n1.2 (dot _)]
    simp only [n1.1, if_false]
    rw [optGroup_app _ _ _ '.' (by simp) n2 (dot _)]
    simp only
    rw [optGroup_app _ _ _ '.' (by simp) n3 (dash _)]
    simp

example : Version.Wf ⟨5, 15, 2, 7⟩ ∧ fromString "5.15.2-7".toList true = ⟨5, 15, 2, 7⟩ := by
  constructor
  · simp [Version.Wf, intMax]
  · decide

theorem isNum_head {g : List Char} (h : IsNum g) : ∃ c cs, g = c :: cs ∧ c.isDigit = true := by
  obtain ⟨h1, h2⟩ := h
  cases g with
  | nil => exact absurd rfl h1
  | cons c cs => exact ⟨c, cs, rfl, h2 c (by simp)⟩

/-- C02, the accepted language.  `fromString` yields the components of *some* match of the regular
expression with the whole string whenever there is one, and the invalid version otherwise: it does
not miss matches by not backtracking. -/
theorem C02_accepts_exactly (s : List Char) (allow : Bool) :
    (∃ g1 g2 g3 g4, Matches allow s g1 g2 g3 g4 ∧
      fromString s allow = ⟨toInt g1, toInt g2, toInt g3, toInt g4⟩) ∨
    ((∀ g1 g2 g3 g4, ¬ Matches allow s g1 g2 g3 g4) ∧ fromString s allow = {}) := by
  have sepd : ∀ c ∈ (['-', '.'] : List Char), c.isDigit = false := by decide
  have dotd : ∀ c ∈ (['.'] : List Char), c.isDigit = false := by decide
  -- the deterministic parse
  let g1 := (spanDigits s).1
  let r1 := (spanDigits s).2
  let g2 := (optGroup ['.'] r1).1
  let r2 := (optGroup ['.'] r1).2
  let g3 := (optGroup ['.'] r2).1
  let r3 := (optGroup ['.'] r2).2
  let p4 := if allow then optGroup ['-', '.'] r3 else ([], r3)
  have hfs : fromString s allow = if g1 = [] then {} else
      if p4.2 = [] then ⟨toInt g1, toInt g2, toInt g3, toInt p4.1⟩ else {} := rfl
  by_cases hg1 : g1 = []
  · right
    rw [hfs, if_pos hg1]
    refine ⟨fun h1 h2 h3 h4 hm => ?_, rfl⟩
    obtain ⟨t2, t3, t4, hs, hn, _⟩ := hm
    obtain ⟨c, cs, rfl, hc⟩ := isNum_head hn
    have : g1 = (spanDigits s).1 := rfl
    rw [hg1, hs] at this
    simp [spanDigits, hc] at this
  · by_cases hp : p4.2 = []
    · left
      rw [hfs, if_neg hg1, if_pos hp]
      obtain ⟨t2, o2, e2⟩ := optGroup_spec ['.'] r1
      obtain ⟨t3, o3, e3⟩ := optGroup_spec ['.'] r2
      have e1 : g1 ++ r1 = s := spanDigits_eq s
      have n1 : IsNum g1 := ⟨hg1, spanDigits_fst s⟩
      cases allow with
      | false =>
        have hp' : r3 = [] := hp
        refine ⟨g1, g2, g3, [], ⟨t2, t3, [], ?_, n1, o2, o3, by simp⟩, rfl⟩
        have h3 : (optGroup ['.'] r2).2 = [] := hp'
        rw [h3, List.append_nil] at e3
        have h2 : t2 ++ r2 = r1 := e2
        rw [← e1, ← h2, ← e3]; simp
      | true =>
        obtain ⟨t4, o4, e4⟩ := optGroup_spec ['-', '.'] r3
        have hp' : (optGroup ['-', '.'] r3).2 = [] := hp
        refine ⟨g1, g2, g3, (optGroup ['-', '.'] r3).1, ⟨t2, t3, t4, ?_, n1, o2, o3, o4⟩, rfl⟩
        rw [hp', List.append_nil] at e4
        have h2 : t2 ++ r2 = r1 := e2
        have h3 : t3 ++ r3 = r2 := e3
        rw [← e1, ← h2, ← h3, ← e4]; simp
    · right
      rw [hfs, if_neg hg1, if_neg hp]
      refine ⟨fun h1 h2 h3 h4 hm => hp ?_, rfl⟩
      obtain ⟨t2, t3, t4, hs, hn, o2, o3, o4⟩ := hm
      -- normal form of the remaining text: at most three separator/number groups
      have og : ∀ seps g t, (∀ c ∈ seps, c.isDigit = false) → OptGroup seps g t →
          ∀ c cs, t = c :: cs → c.isDigit = false := by
        intro seps g t hseps ho c cs ht
        rcases ho with ⟨_, rfl⟩ | ⟨_, d, hd, rfl⟩
        · simp at ht
        · simp at ht; rw [← ht.1]; exact hseps d hd
      have o4' : OptGroup (if allow then ['-', '.'] else []) h4 t4 := by
        cases allow
        · exact Or.inl o4
        · exact o4
      have s4 : ∀ c cs, t4 = c :: cs → c.isDigit = false :=
        og _ _ _ (by cases allow <;> simp <;> decide) o4'
      have s34 : ∀ c cs, t3 ++ t4 = c :: cs → c.isDigit = false := by
        intro c cs h
        cases t3 with
        | nil => exact s4 c cs (by simpa using h)
        | cons d ds => simp at h; exact og _ _ _ dotd o3 c ds (by rw [h.1])
      have s234 : ∀ c cs, t2 ++ (t3 ++ t4) = c :: cs → c.isDigit = false := by
        intro c cs h
        cases t2 with
        | nil => exact s34 c cs (by simpa using h)
        | cons d ds => simp at h; exact og _ _ _ dotd o2 c ds (by rw [h.1])
      have hr1 : r1 = t2 ++ (t3 ++ t4) := by
        have : spanDigits s = (h1, t2 ++ (t3 ++ t4)) := by
          rw [hs, List.append_assoc, List.append_assoc]
          exact spanDigits_append _ _ hn.2 s234
        exact congrArg Prod.snd this
      -- a leading optional group is consumed entirely
      have step : ∀ seps sepsM g t rest, (∀ c ∈ sepsM, c ∈ seps) → OptGroup sepsM g t →
          (∀ c cs, rest = c :: cs → c.isDigit = false) → t ≠ [] →
          optGroup seps (t ++ rest) = (g, rest) := by
        intro seps sepsM g t rest hsub ho hr hne
        rcases ho with ⟨_, rfl⟩ | ⟨hgn, d, hd, rfl⟩
        · exact absurd rfl hne
        · exact optGroup_app seps g rest d (hsub d hd) hgn hr
      have stepNil : ∀ seps, optGroup seps [] = ([], []) := fun _ => rfl
      -- `optGroup` on a single remaining group leaves nothing or keeps it untouched
      have last : ∀ seps, optGroup seps t4 = (h4, []) ∨ optGroup seps t4 = ([], t4) := by
        intro seps
        rcases o4' with ⟨e, rfl⟩ | ⟨hgn, d, hd, rfl⟩
        · exact Or.inr rfl
        · by_cases hds : d ∈ seps
          · left
            have := optGroup_app seps h4 [] d hds hgn (by simp)
            simpa using this
          · right; simp [optGroup, hds]
      have lastFull : allow = true → (optGroup ['-', '.'] t4).2 = [] := by
        intro ha
        rw [ha] at o4'
        by_cases ht : t4 = []
        · rw [ht]; rfl
        · have := step ['-', '.'] ['-', '.'] h4 t4 [] (by simp) o4' (by simp) ht
          rw [List.append_nil] at this
          rw [this]
      have p4nil : ∀ r, r = [] → (if allow then optGroup ['-', '.'] r else ([], r)).2 = [] := by
        intro r hr; subst hr; cases allow <;> rfl
      have p4t4 : (if allow then optGroup ['-', '.'] t4 else ([], t4)).2 = [] := by
        cases allow with
        | true => exact lastFull rfl
        | false => exact o4.2
      -- case analysis on which groups are present
      by_cases ht2 : t2 = []
      · subst ht2
        by_cases ht3 : t3 = []
        · subst ht3
          have hr1' : r1 = t4 := by simpa using hr1
          rcases last ['.'] with hl | hl
          · have hr2 : r2 = [] := by change (optGroup ['.'] r1).2 = []; rw [hr1', hl]
            have hr3 : r3 = [] := by change (optGroup ['.'] r2).2 = []; rw [hr2]; rfl
            exact p4nil r3 hr3
          · have hr2 : r2 = t4 := by change (optGroup ['.'] r1).2 = t4; rw [hr1', hl]
            have hr3 : r3 = t4 := by change (optGroup ['.'] r2).2 = t4; rw [hr2, hl]
            change (if allow then optGroup ['-', '.'] r3 else ([], r3)).2 = []
            rw [hr3]; exact p4t4
        · have hr1' : r1 = t3 ++ t4 := by simpa using hr1
          have hr2 : r2 = t4 := by
            change (optGroup ['.'] r1).2 = t4
            rw [hr1', step ['.'] ['.'] h3 t3 t4 (by simp) o3 s4 ht3]
          rcases last ['.'] with hl | hl
          · have hr3 : r3 = [] := by change (optGroup ['.'] r2).2 = []; rw [hr2, hl]
            exact p4nil r3 hr3
          · have hr3 : r3 = t4 := by change (optGroup ['.'] r2).2 = t4; rw [hr2, hl]
            change (if allow then optGroup ['-', '.'] r3 else ([], r3)).2 = []
            rw [hr3]; exact p4t4
      · have hr2 : r2 = t3 ++ t4 := by
          change (optGroup ['.'] r1).2 = _
          rw [hr1, step ['.'] ['.'] h2 t2 (t3 ++ t4) (by simp) o2 s34 ht2]
        by_cases ht3 : t3 = []
        · subst ht3
          have hr2' : r2 = t4 := by simpa using hr2
          rcases last ['.'] with hl | hl
          · have hr3 : r3 = [] := by change (optGroup ['.'] r2).2 = []; rw [hr2', hl]
            exact p4nil r3 hr3
          · have hr3 : r3 = t4 := by change (optGroup ['.'] r2).2 = t4; rw [hr2', hl]
            change (if allow then optGroup ['-', '.'] r3 else ([], r3)).2 = []
            rw [hr3]; exact p4t4
        · have hr3 : r3 = t4 := by
            change (optGroup ['.'] r2).2 = t4
            rw [hr2, step ['.'] ['.'] h3 t3 t4 (by simp) o3 s4 ht3]
          change (if allow then optGroup ['-', '.'] r3 else ([], r3)).2 = []
          rw [hr3]; exact p4t4

example : fromString "1.2.3-4x".toList true = {} ∧ fromString "2-5".toList true = ⟨2, 0, 0, 5⟩ := by
  decide

/-! ## C03 -/

theorem isValid_iff (v : Version) : v.isValid = true ↔ v ≠ {} := by
  obtain ⟨a, b, c, d⟩ := v
  simp [Version.isValid, Version.mk.injEq]; omega

/-- Full statement of C03: narrowing yields the intersection of the two ranges. -/
def NarrowDownIsIntersection : Prop :=
  ∀ (r other : Range) (v : Version), (r.narrowDown other).Allows v ↔ r.Allows v ∧ other.Allows v

/-- C03, finding: narrowing an unbounded range does not take over the other range's upper bound.
A product with `Depends { name: "m" }` and `Depends { name: "m"; versionBelow: "2.0" }` accepts
version 3.0 of the module, although the second item excludes it; in the other order it is
rejected. -/
theorem C03_narrowDown_not_intersection :
    ¬ NarrowDownIsIntersection ∧
    (Range.accumulate {} [⟨{}, ⟨2, 0, 0, 0⟩⟩]).accepts ⟨3, 0, 0, 0⟩ = true ∧
    (Range.accumulate ⟨{}, ⟨2, 0, 0, 0⟩⟩ [{}]).accepts ⟨3, 0, 0, 0⟩ = false := by
  refine ⟨fun h => ?_, by decide, by decide⟩
  have := (h {} ⟨{}, ⟨2, 0, 0, 0⟩⟩ ⟨3, 0, 0, 0⟩).mp (by
    refine ⟨by simp [Range.narrowDown, LexLt], Or.inl (by decide)⟩)
  simp [Range.Allows, LexLt] at this

/-- C03, proved part: if the receiver has an upper bound (or the argument has none), narrowing is
exactly intersection.  Missing with respect to `NarrowDownIsIntersection`: an unbounded receiver
narrowed by a bounded range (see `C03_narrowDown_not_intersection`). -/
theorem C03_narrowDown_partial (r other : Range) (v : Version)
    (h : r.maximum ≠ {} ∨ other.maximum = {}) :
    (r.narrowDown other).Allows v ↔ r.Allows v ∧ other.Allows v := by
  have tri : ∀ a b : Version, LexLt a b ∨ a = b ∨ LexLt b a := by
    rintro ⟨a1, a2, a3, a4⟩ ⟨b1, b2, b3, b4⟩
    simp only [LexLt, Version.mk.injEq]; omega
  have tr : ∀ a b c : Version, LexLt a b → LexLt b c → LexLt a c := by
    intro a b c; simp only [LexLt]; omega
  have irr : ∀ x : Version, ¬ LexLt x x := fun x => by simp only [LexLt]; omega
  have hmin : ¬ LexLt v (r.narrowDown other).minimum ↔
      ¬ LexLt v r.minimum ∧ ¬ LexLt v other.minimum := by
    simp only [Range.narrowDown]
    by_cases hg : LexLt r.minimum other.minimum
    · rw [if_pos ((gt_iff _ _).mpr hg)]
      exact ⟨fun h1 => ⟨fun h2 => h1 (tr _ _ _ h2 hg), h1⟩, fun h1 => h1.2⟩
    · rw [if_neg (fun h' => hg ((gt_iff _ _).mp h'))]
      refine ⟨fun h1 => ⟨h1, fun h2 => ?_⟩, fun h1 => h1.1⟩
      rcases tri r.minimum other.minimum with h3 | h3 | h3
      · exact hg h3
      · rw [h3] at h1; exact h1 h2
      · exact h1 (tr _ _ _ h2 h3)
  have hmax : ((r.narrowDown other).maximum = {} ∨ LexLt v (r.narrowDown other).maximum) ↔
      (r.maximum = {} ∨ LexLt v r.maximum) ∧ (other.maximum = {} ∨ LexLt v other.maximum) := by
    simp only [Range.narrowDown]
    by_cases ho : other.maximum = {}
    · have hiv : other.maximum.isValid = false := by rw [ho]; decide
      rw [hiv, Bool.false_and]
      simp [ho]
    · have hr : r.maximum ≠ {} := h.resolve_right ho
      have hiv : other.maximum.isValid = true := (isValid_iff _).mpr ho
      by_cases hl : LexLt other.maximum r.maximum
      · simp only [hiv, (lt_iff _ _).mpr hl, Bool.and_self, if_true]
        simp only [ho, hr, false_or]
        exact ⟨fun h1 => ⟨tr _ _ _ h1 hl, h1⟩, fun h1 => h1.2⟩
      · have : lt other.maximum r.maximum = false := by
          rw [Bool.eq_false_iff]; exact fun h' => hl ((lt_iff _ _).mp h')
        simp only [hiv, this, Bool.and_false, Bool.false_eq_true, if_false]
        simp only [ho, hr, false_or]
        refine ⟨fun h1 => ⟨h1, ?_⟩, fun h1 => h1.1⟩
        rcases tri other.maximum r.maximum with h3 | h3 | h3
        · exact absurd h3 hl
        · rw [h3]; exact h1
        · exact tr _ _ _ h1 h3
  unfold Range.Allows
  rw [hmin, hmax]
  constructor
  · rintro ⟨⟨a, b⟩, c, d⟩; exact ⟨⟨a, c⟩, b, d⟩
  · rintro ⟨⟨a, c⟩, b, d⟩; exact ⟨⟨a, b⟩, c, d⟩

example : (⟨⟨1, 0, 0, 0⟩, ⟨3, 0, 0, 0⟩⟩ : Range).maximum ≠ {} ∧
    Range.narrowDown ⟨⟨1, 0, 0, 0⟩, ⟨3, 0, 0, 0⟩⟩ ⟨⟨1, 5, 0, 0⟩, ⟨2, 0, 0, 0⟩⟩ =
      ⟨⟨1, 5, 0, 0⟩, ⟨2, 0, 0, 0⟩⟩ := by decide

/-- C03, the version check.  The check performed after resolving accepts exactly the versions the
range allows, for components as the parser produces them; an unsatisfiable range rejects every
version. -/
theorem C03_accepts_iff_allows (r : Range) (v : Version) (hv : v.Wf) :
    r.accepts v = true ↔ r.Allows v := by
  have tri : ∀ a b : Version, LexLt a b ∨ a = b ∨ LexLt b a := by
    rintro ⟨a1, a2, a3, a4⟩ ⟨b1, b2, b3, b4⟩
    simp only [LexLt, Version.mk.injEq]; omega
  have tr : ∀ a b c : Version, LexLt a b → LexLt b c → LexLt a c := by
    intro a b c; simp only [LexLt]; omega
  have geIff : ∀ a b : Version, ge a b = true ↔ ¬ LexLt a b := by
    intro a b; rw [ge, Bool.not_eq_true', Bool.eq_false_iff, ne_eq, lt_iff]
  have min0 : ¬ LexLt v {} := by
    obtain ⟨a, b, c, d⟩ := v
    simp only [Version.Wf] at hv; simp only [LexLt]; omega
  have imp : ¬ LexLt r.minimum r.maximum → LexLt v r.maximum → LexLt v r.minimum := by
    intro h3 h5
    rcases tri v r.minimum with h | h | h
    · exact h
    · exact absurd (h ▸ h5) h3
    · exact absurd (tr _ _ _ h h5) h3
  have bmin : r.minimum.isValid = !decide (r.minimum = {}) := by
    rw [Bool.eq_iff_iff, isValid_iff]; simp
  have bmax : r.maximum.isValid = !decide (r.maximum = {}) := by
    rw [Bool.eq_iff_iff, isValid_iff]; simp
  have blt : ∀ a b, lt a b = decide (LexLt a b) := by
    intro a b; rw [Bool.eq_iff_iff, lt_iff]; simp
  unfold Range.accepts Range.Allows
  rw [bmin, bmax]
  simp only [ge, blt]
  by_cases hmin : r.minimum = {}
  · by_cases hmax : r.maximum = {}
    · simp [hmin, hmax, min0]
    · by_cases h3 : LexLt r.minimum r.maximum <;> by_cases h4 : LexLt v r.minimum <;>
        by_cases h5 : LexLt v r.maximum <;> simp_all
  · by_cases hmax : r.maximum = {}
    · by_cases h4 : LexLt v r.minimum <;> simp [hmin, hmax, h4]
    · by_cases h3 : LexLt r.minimum r.maximum <;> by_cases h4 : LexLt v r.minimum <;>
        by_cases h5 : LexLt v r.maximum <;> simp_all

example : (⟨⟨1, 0, 0, 0⟩, ⟨2, 0, 0, 0⟩⟩ : Range).accepts ⟨1, 9, 9, 0⟩ = true := by decide

end Verif.Version
