import Verif.Read.Spec

namespace Verif.Read

def paths (l : Props) : List Path := l.map (·.1)

theorem get_append_of_not_mem (l m : Props) (p : Path) (h : p ∉ paths l) : get (l ++ m) p = get m p := by
  induction l with
  | nil => rfl
  | cons e l ih =>
    obtain ⟨q, v⟩ := e
    simp only [paths, List.map_cons, List.mem_cons, not_or] at h
    rw [List.cons_append, get, if_neg (fun e => h.1 e.symm)]
    exact ih h.2

theorem get_not_mem (l : Props) (p : Path) (h : p ∉ paths l) : get l p = [] := by
  have := get_append_of_not_mem l [] p h
  rw [List.append_nil] at this
  exact this

theorem get_append_other (l : Props) (q p : Path) (v : List Src) (h : q ≠ p) :
    get (l ++ [(q, v)]) p = get l p := by
  induction l with
  | nil => simp [get, h]
  | cons e l ih =>
    obtain ⟨q', v'⟩ := e
    rw [List.cons_append, get, get]
    by_cases h' : q' = p
    · rw [if_pos h', if_pos h']
    · rw [if_neg h', if_neg h']; exact ih

theorem get_filter (l : Props) (f : Path × List Src → Bool) (p : Path) (h : ∀ v, f (p, v) = true) :
    get (l.filter f) p = get l p := by
  induction l with
  | nil => rfl
  | cons e l ih =>
    obtain ⟨q, v⟩ := e
    by_cases hq : q = p
    · subst hq
      rw [List.filter_cons_of_pos (h v), get, get, if_pos rfl, if_pos rfl]
    · by_cases hf : f (q, v) = true
      · rw [List.filter_cons_of_pos hf, get, get, if_neg hq, if_neg hq]; exact ih
      · rw [List.filter_cons_of_neg hf, get, if_neg hq]; exact ih

theorem hasOwn_iff (l : Props) (p : Path) : hasOwn l p = true ↔ ∃ q ∈ paths l, ∃ r, q = p ++ r := by
  unfold hasOwn paths
  simp only [List.any_eq_true, List.mem_map]
  constructor
  · rintro ⟨e, he, hp⟩
    obtain ⟨r, hr⟩ := List.isPrefixOf_iff_prefix.1 hp
    exact ⟨e.1, ⟨e, he, rfl⟩, r, hr.symm⟩
  · rintro ⟨q, ⟨e, he, rfl⟩, r, hr⟩
    exact ⟨e, he, List.isPrefixOf_iff_prefix.2 ⟨r, hr.symm⟩⟩

theorem not_hasOwn {l : Props} {p : Path} (h : ¬ hasOwn l p = true) : p ∉ paths l := by
  intro hm
  exact h ((hasOwn_iff l p).2 ⟨p, hm, [], by simp⟩)

theorem valueAbove_iff (l : Props) (p : Path) : valueAbove l p = true ↔ ∃ q ∈ paths l, Above q p := by
  unfold valueAbove paths Above
  simp only [List.any_eq_true, List.mem_map, Bool.and_eq_true, bne_iff_ne]
  constructor
  · rintro ⟨e, he, hp, hne⟩
    obtain ⟨r, hr⟩ := List.isPrefixOf_iff_prefix.1 hp
    exact ⟨e.1, ⟨e, he, rfl⟩, hne, r, hr.symm⟩
  · rintro ⟨q, ⟨e, he, rfl⟩, hne, r, hr⟩
    exact ⟨e, he, List.isPrefixOf_iff_prefix.2 ⟨r, hr.symm⟩, hne⟩

theorem nodup_snoc {l : List Path} {p : Path} (h : l.Nodup) (hp : p ∉ l) : (l ++ [p]).Nodup := by
  rw [List.nodup_append]
  exact ⟨h, by simp, fun a ha b hb => by simp at hb; subst hb; exact fun e => hp (e ▸ ha)⟩

/-! ### Declarations -/

def declOf (l : List (Name × Decl)) (n : Name) : Option Decl := (l.find? (fun e => e.1 = n)).map (·.2)

theorem declOf_insert (l : List (Name × Decl)) (n m : Name) (d : Decl) :
    declOf (insertDecl l n d) m = if m = n then some d else declOf l m := by
  unfold declOf insertDecl
  rw [List.find?_append]
  by_cases h : m = n
  · subst h
    have : (l.filter (fun e => e.1 ≠ m)).find? (fun e => e.1 = m) = none := by
      rw [List.find?_eq_none]
      intro x hx
      simp only [List.mem_filter] at hx
      simpa using hx.2
    rw [this]
    simp
  · rw [if_neg h]
    have h1 : (l.filter (fun e => e.1 ≠ n)).find? (fun e => e.1 = m) = l.find? (fun e => e.1 = m) := by
      induction l with
      | nil => rfl
      | cons e l ih =>
        by_cases he : e.1 = n
        · rw [List.filter_cons_of_neg (by simpa using he), ih,
            List.find?_cons_of_neg (by simp [he]; exact fun x => h x.symm)]
        · rw [List.filter_cons_of_pos (by simpa using he)]
          by_cases hm : e.1 = m
          · rw [List.find?_cons_of_pos (by simpa using hm), List.find?_cons_of_pos (by simpa using hm)]
          · rw [List.find?_cons_of_neg (by simpa using hm), List.find?_cons_of_neg (by simpa using hm), ih]
    rw [h1]
    have h2 : List.find? (fun e : Name × Decl => decide (e.1 = m)) [(n, d)] = none := by
      rw [List.find?_cons_of_neg (by simpa using fun x => h x.symm)]
      rfl
    rw [h2]
    simp

/-! ### Members -/

/-- The last of the values at a path, after `init`. -/
def lastAt (p : Path) (init : List Src) : List (Path × Src) → List Src
  | [] => init
  | (q, s) :: l => lastAt p (if q = p then [s] else init) l

theorem lastAt_eq (p : Path) (init : List Src) (l : List (Path × Src)) :
    lastAt p init l = match (l.filter (fun e => e.1 = p)).getLast? with | some e => [e.2] | none => init := by
  induction l generalizing init with
  | nil => rfl
  | cons e l ih =>
    obtain ⟨q, s⟩ := e
    rw [lastAt, ih]
    by_cases h : q = p
    · rw [if_pos h, List.filter_cons_of_pos (by simpa using h)]
      cases hl : l.filter (fun e => e.1 = p) with
      | nil => simp
      | cons x xs => simp [List.getLast?_cons]
    · rw [if_neg h, List.filter_cons_of_neg (by simpa using h)]

theorem lastAt_setting (o : Obj) (p : Path) :
    lastAt p [] o.members.settings = (o.setting p).toList := by
  rw [lastAt_eq]
  unfold Obj.setting
  cases (o.members.settings.filter (fun e => e.1 = p)).getLast? with
  | none => rfl
  | some e => rfl

def rhsSrc : Option Nat → Src
  | some c => .code c
  | none => .empty

theorem addDecl_ok {own own' : Own} {n : Name} {d : Decl} {rhs : Option Nat} (h : addDecl own n d rhs = .ok own')
    (hnd : (paths own.props).Nodup) :
    (paths own'.props).Nodup ∧ own'.decls = insertDecl own.decls n d ∧ own'.children = own.children ∧
    (∀ p, ¬ Above [n] p → get own'.props p =
      if [n] = p then [rhsSrc rhs] else get own.props p) ∧
    (∀ m, hasOwn own'.props [m] = true ↔ m = n ∨ hasOwn own.props [m] = true) := by
  unfold addDecl at h
  cases rhs with
  | some c =>
    simp only at h
    by_cases hh : hasOwn own.props [n] = true
    · rw [if_pos hh] at h; exact absurd h (by simp)
    · rw [if_neg hh] at h
      cases h
      have hn := not_hasOwn hh
      refine ⟨?_, rfl, rfl, fun p _ => ?_, fun m => ?_⟩
      · simpa [paths] using nodup_snoc hnd hn
      · by_cases hp : [n] = p
        · subst hp
          rw [if_pos rfl]
          exact (get_append_of_not_mem _ _ _ hn).trans (by simp [get, rhsSrc])
        · rw [if_neg hp]; exact get_append_other _ _ _ _ hp
      · simp only [hasOwn_iff, paths, List.map_append, List.map_cons, List.map_nil, List.mem_append,
          List.mem_singleton]
        constructor
        · rintro ⟨q, hq | hq, r, hr⟩
          · exact Or.inr ⟨q, hq, r, hr⟩
          · subst hq
            simp at hr
            exact Or.inl hr.1.symm
        · rintro (e | ⟨q, hq, r, hr⟩)
          · subst e
            exact ⟨[m], Or.inr rfl, [], by simp⟩
          · exact ⟨q, Or.inl hq, r, hr⟩
  | none =>
    simp only at h
    cases h
    have hn : [n] ∉ paths (own.props.filter (fun e => ![n].isPrefixOf e.1)) := by
      intro hm
      simp only [paths, List.mem_map, List.mem_filter] at hm
      obtain ⟨e, ⟨_, he⟩, he2⟩ := hm
      rw [he2] at he
      simp at he
    refine ⟨?_, rfl, rfl, fun p hp => ?_, fun m => ?_⟩
    · have : (paths (own.props.filter (fun e => ![n].isPrefixOf e.1))).Nodup :=
        ((List.filter_sublist).map _).nodup hnd
      simpa [paths] using nodup_snoc this hn
    · by_cases hpn : [n] = p
      · subst hpn
        rw [if_pos rfl]
        exact (get_append_of_not_mem _ _ _ hn).trans (by simp [get, rhsSrc])
      · rw [if_neg hpn]
        refine (get_append_other _ _ _ _ hpn).trans (get_filter _ _ _ ?_)
        intro v
        simp only [Bool.not_eq_true', Bool.eq_false_iff]
        intro hpre
        obtain ⟨r, hr⟩ := List.isPrefixOf_iff_prefix.1 hpre
        exact hp ⟨hpn, r, hr.symm⟩
    · simp only [hasOwn_iff, paths, List.map_append, List.map_cons, List.map_nil, List.mem_append,
        List.mem_singleton, List.mem_map, List.mem_filter]
      constructor
      · rintro ⟨q, ⟨e, ⟨he, _⟩, rfl⟩ | hq, r, hr⟩
        · exact Or.inr ⟨e.1, ⟨e, he, rfl⟩, r, hr⟩
        · subst hq
          simp at hr
          exact Or.inl hr.1.symm
      · rintro (e | ⟨q, ⟨e, he, rfl⟩, r, hr⟩)
        · subst e
          exact ⟨[m], Or.inr rfl, [], by simp⟩
        · by_cases hm : m = n
          · subst hm
            exact ⟨[m], Or.inr rfl, [], by simp⟩
          · refine ⟨e.1, Or.inl ⟨e, ⟨he, ?_⟩, rfl⟩, r, hr⟩
            simp only [Bool.not_eq_true', Bool.eq_false_iff]
            intro hpre
            obtain ⟨r', hr'⟩ := List.isPrefixOf_iff_prefix.1 hpre
            rw [hr] at hr'
            simp at hr'
            exact hm hr'.1.symm

theorem addBinding_ok {own own' : Own} {q : Path} {c : Nat} (h : addBinding own q c = .ok own')
    (hnd : (paths own.props).Nodup) :
    (paths own'.props).Nodup ∧ own'.decls = own.decls ∧ own'.children = own.children ∧
    (∀ p, get own'.props p = if q = p then [.code c] else get own.props p) ∧
    (∀ m, hasOwn own'.props [m] = true ↔ q.head? = some m ∨ hasOwn own.props [m] = true) := by
  unfold addBinding at h
  by_cases h1 : valueAbove own.props q = true
  · rw [if_pos h1] at h; exact absurd h (by simp)
  · rw [if_neg h1] at h
    by_cases hh : hasOwn own.props q = true
    · rw [if_pos hh] at h; exact absurd h (by simp)
    · rw [if_neg hh] at h
      cases h
      have hn := not_hasOwn hh
      refine ⟨?_, rfl, rfl, fun p => ?_, fun m => ?_⟩
      · simpa [paths] using nodup_snoc hnd hn
      · by_cases hp : q = p
        · subst hp
          rw [if_pos rfl]
          exact (get_append_of_not_mem _ _ _ hn).trans (by simp [get, rhsSrc])
        · rw [if_neg hp]; exact get_append_other _ _ _ _ hp
      · simp only [hasOwn_iff, paths, List.map_append, List.map_cons, List.map_nil, List.mem_append,
          List.mem_singleton]
        constructor
        · rintro ⟨q', hq | hq, r, hr⟩
          · exact Or.inr ⟨q', hq, r, hr⟩
          · subst hq
            rw [hr]
            exact Or.inl rfl
        · rintro (e | ⟨q', hq, r, hr⟩)
          · cases q with
            | nil => simp at e
            | cons a q =>
              simp at e
              subst e
              exact ⟨a :: q, Or.inr rfl, q, rfl⟩
          · exact ⟨q', Or.inl hq, r, hr⟩

/-- The values, declarations and children after the members have been read. -/
theorem readMembers_ok (w : World) (rf : File → Except Err Item) (f : File) : ∀ (ms : Members) (own own' : Own),
    readMembers w rf f own ms = .ok own' → (paths own.props).Nodup →
    (paths own'.props).Nodup ∧
    (∀ n, declOf own'.decls n =
      (((ms.decls.filter (fun e => e.1 = n)).getLast?).map (·.2)).or (declOf own.decls n)) ∧
    (∃ cs, own'.children = own.children ++ cs ∧ List.map (readObj w rf f) ms.objs = cs.map .ok) ∧
    (∀ p, (∀ e ∈ ms.settings, ¬ Above e.1 p) →
      get own'.props p = lastAt p (get own.props p) ms.settings) ∧
    (∀ m, hasOwn own'.props [m] = true ↔
      (∃ e ∈ ms.settings, e.1.head? = some m) ∨ hasOwn own.props [m] = true)
  | .nil, own, own', h, hnd => by
    rw [readMembers] at h
    cases h
    exact ⟨hnd, fun n => by simp [Members.decls], ⟨[], by simp, rfl⟩, fun p _ => rfl,
      fun m => by simp [Members.settings]⟩
  | .decl n d rhs ms, own, own', h, hnd => by
    rw [readMembers] at h
    cases hd : addDecl own n d rhs with
    | error e => rw [hd] at h; cases h
    | ok own1 =>
      rw [hd] at h
      simp only at h
      obtain ⟨a1, a2, a3, a4, a5⟩ := addDecl_ok hd hnd
      obtain ⟨b1, b2, ⟨cs, b3, b3'⟩, b4, b5⟩ := readMembers_ok w rf f ms own1 own' h a1
      have hset : ∃ s, (Members.decl n d rhs ms).settings = ([n], s) :: ms.settings ∧
          s = rhsSrc rhs := by
        cases rhs with
        | none => exact ⟨_, rfl, rfl⟩
        | some c => exact ⟨_, rfl, rfl⟩
      obtain ⟨s, hs, hs'⟩ := hset
      refine ⟨b1, fun m => ?_, ⟨cs, by rw [b3, a3], b3'⟩, fun p hp => ?_, fun m => ?_⟩
      · rw [b2, a2, declOf_insert, Members.decls]
        by_cases hm : n = m
        · subst hm
          rw [List.filter_cons_of_pos (by simp), List.getLast?_cons, if_pos rfl]
          cases (ms.decls.filter (fun e => e.1 = n)).getLast? with
          | none => rfl
          | some e => rfl
        · rw [List.filter_cons_of_neg (by simpa using hm), if_neg (fun e => hm e.symm)]
      · rw [hs] at hp ⊢
        have hna : ¬ Above [n] p := hp _ List.mem_cons_self
        rw [b4 p (fun e he => hp e (List.mem_cons_of_mem _ he)), lastAt, a4 p hna, hs']
      · rw [b5, a5, hs]
        simp only [List.mem_cons, exists_eq_or_imp, List.head?_cons, Option.some.injEq]
        constructor
        · rintro (h | h | h)
          · exact Or.inl (Or.inr h)
          · exact Or.inl (Or.inl h.symm)
          · exact Or.inr h
        · rintro ((h | h) | h)
          · exact Or.inr (Or.inl h.symm)
          · exact Or.inl h
          · exact Or.inr (Or.inr h)
  | .bind q c ms, own, own', h, hnd => by
    rw [readMembers] at h
    cases hd : addBinding own q c with
    | error e => rw [hd] at h; cases h
    | ok own1 =>
      rw [hd] at h
      simp only at h
      obtain ⟨a1, a2, a3, a4, a5⟩ := addBinding_ok hd hnd
      obtain ⟨b1, b2, ⟨cs, b3, b3'⟩, b4, b5⟩ := readMembers_ok w rf f ms own1 own' h a1
      refine ⟨b1, fun m => ?_, ⟨cs, by rw [b3, a3], b3'⟩, fun p hp => ?_, fun m => ?_⟩
      · rw [b2, a2, Members.decls]
      · rw [Members.settings] at hp ⊢
        rw [b4 p (fun e he => hp e (List.mem_cons_of_mem _ he)), lastAt, a4 p]
      · rw [b5, a5, Members.settings]
        simp only [List.mem_cons, exists_eq_or_imp]
        constructor
        · rintro (h | h | h)
          · exact Or.inl (Or.inr h)
          · exact Or.inl (Or.inl h)
          · exact Or.inr h
        · rintro ((h | h) | h)
          · exact Or.inr (Or.inl h)
          · exact Or.inl h
          · exact Or.inr (Or.inr h)
  | .child o ms, own, own', h, hnd => by
    rw [readMembers] at h
    cases hd : readObj w rf f o with
    | error e => rw [hd] at h; cases h
    | ok i =>
      rw [hd] at h
      simp only at h
      obtain ⟨b1, b2, ⟨cs, b3, b3'⟩, b4, b5⟩ :=
        readMembers_ok w rf f ms { own with children := own.children ++ [i] } own' h hnd
      refine ⟨b1, fun m => by rw [b2, Members.decls], ⟨i :: cs, by rw [b3]; simp, ?_⟩,
        fun p hp => by rw [Members.settings] at hp ⊢; exact b4 p hp, fun m => by rw [b5, Members.settings]⟩
      rw [Members.objs, List.map_cons, hd, b3', List.map_cons]

/-! ### Inheritance -/

theorem inheritProp_ok {d d' : Props} {q : Path} {v : List Src} (h : inheritProp d q v = .ok d')
    (hnd : (paths d).Nodup) :
    (paths d').Nodup ∧ (∀ p, p ≠ q → get d' p = get d p) ∧ (¬ valueAbove d q = true → get d' q = get d q ++ v) ∧
      (∀ x, x ∈ paths d' → x ∈ paths d ∨ x = q) := by
  unfold inheritProp at h
  by_cases h1 : d.any (fun e => e.1 = q) = true
  · rw [if_pos h1] at h
    cases h
    have hpaths : paths (d.map fun e => if e.1 = q then (e.1, e.2 ++ v) else e) = paths d := by
      unfold paths
      rw [List.map_map]
      refine List.map_congr_left ?_
      intro e _
      by_cases he : e.1 = q
      · simp [he]
      · simp [he]
    refine ⟨by rw [hpaths]; exact hnd, fun p hp => ?_, fun hx0 => ?_, fun x hx => Or.inl (by rw [hpaths] at hx; exact hx)⟩
    · clear h1 hpaths hnd
      induction d with
      | nil => rfl
      | cons e d ih =>
        obtain ⟨q', v'⟩ := e
        by_cases he : q' = q
        · subst he
          simp only [List.map_cons, if_true, get]
          rw [if_neg (fun e => hp e.symm), if_neg (fun e => hp e.symm)]
          exact ih
        · simp only [List.map_cons, he, if_false, get]
          by_cases hp' : q' = p
          · rw [if_pos hp', if_pos hp']
          · rw [if_neg hp', if_neg hp']; exact ih
    · clear hpaths hnd hx0
      induction d with
      | nil => simp at h1
      | cons e d ih =>
        obtain ⟨q', v'⟩ := e
        by_cases he : q' = q
        · subst he
          simp [get]
        · simp only [List.map_cons, he, if_false, get]
          apply ih
          simpa [he] using h1
  · rw [if_neg h1] at h
    have hq : q ∉ paths d := by
      intro hm
      apply h1
      simp only [paths, List.mem_map] at hm
      obtain ⟨e, he, he'⟩ := hm
      simp only [List.any_eq_true, decide_eq_true_eq]
      exact ⟨e, he, he'⟩
    by_cases h2 : valueAbove d q = true
    · rw [if_pos h2] at h
      cases h
      exact ⟨hnd, fun p _ => rfl, fun h => absurd h2 h, fun x hx => Or.inl hx⟩
    · rw [if_neg h2] at h
      by_cases h3 : hasOwn d q = true
      · rw [if_pos h3] at h; cases h
      · rw [if_neg h3] at h
        cases h
        refine ⟨by simpa [paths] using nodup_snoc hnd hq, fun p hp => get_append_other _ _ _ _ (fun e => hp e.symm),
          fun _ => ?_, fun x hx => ?_⟩
        · rw [get_append_of_not_mem _ _ _ hq, get_not_mem _ _ hq]; simp [get]
        · simpa [paths] using hx

theorem inheritProps_ok : ∀ (s d d' : Props), inheritProps d s = .ok d' → (paths d).Nodup → (paths s).Nodup →
    (paths d').Nodup ∧ (∀ x, x ∈ paths d' → x ∈ paths d ∨ x ∈ paths s) ∧
    (∀ p, (∀ x ∈ paths d, ¬ Above x p) → (∀ x ∈ paths s, ¬ Above x p) → get d' p = get d p ++ get s p)
  | [], d, d', h, hd, _ => by
    rw [inheritProps] at h
    cases h
    exact ⟨hd, fun x hx => Or.inl hx, fun p _ _ => by simp [get]⟩
  | (q, v) :: s, d, d', h, hd, hs => by
    rw [inheritProps] at h
    cases h1 : inheritProp d q v with
    | error e => rw [h1] at h; cases h
    | ok d1 =>
      rw [h1] at h
      simp only at h
      obtain ⟨a1, a2, a3, a4⟩ := inheritProp_ok h1 hd
      have hs' : q ∉ paths s ∧ (paths s).Nodup := by simpa [paths] using hs
      obtain ⟨b1, b2, b3⟩ := inheritProps_ok s d1 d' h a1 hs'.2
      refine ⟨b1, fun x hx => ?_, fun p hp1 hp2 => ?_⟩
      · rcases b2 x hx with e | e
        · rcases a4 x e with e | e
          · exact Or.inl e
          · subst e; exact Or.inr (by simp [paths])
        · exact Or.inr (by simp [paths] at e ⊢; exact Or.inr e)
      · have hp2' : ∀ x ∈ paths s, ¬ Above x p := fun x hx => hp2 x (by simp [paths] at hx ⊢; exact Or.inr hx)
        have hp1' : ∀ x ∈ paths d1, ¬ Above x p := by
          intro x hx
          rcases a4 x hx with e | e
          · exact hp1 x e
          · subst e; exact hp2 x (by simp [paths])
        rw [b3 p hp1' hp2', get]
        by_cases hq : q = p
        · subst hq
          rw [if_pos rfl, a3 ?_, get_not_mem s q hs'.1, List.append_nil]
          rw [valueAbove_iff]
          rintro ⟨x, hx, hx'⟩
          exact hp1 x hx hx'
        · rw [if_neg hq, a2 p (fun e => hq e.symm)]

theorem inheritDecls_ok (own : Own) : ∀ (l r : List (Name × Decl)), inheritDecls own l = .ok r →
    (∀ n, declOf r n = (declOf l n).or (declOf own.decls n)) ∧
    ∀ e ∈ l, e.2.readOnly = true → ¬ hasOwn own.props [e.1] = true
  | [], r, h => by
    rw [inheritDecls] at h
    cases h
    exact ⟨fun n => rfl, by simp⟩
  | (n, d) :: l, r, h => by
    rw [inheritDecls] at h
    by_cases hr : (d.readOnly && hasOwn own.props [n]) = true
    · rw [if_pos hr] at h; cases h
    · rw [if_neg hr] at h
      cases h1 : inheritDecls own l with
      | error e => rw [h1] at h; cases h
      | ok r1 =>
        rw [h1] at h
        cases h
        obtain ⟨a1, a2⟩ := inheritDecls_ok own l r1 h1
        refine ⟨fun m => ?_, ?_⟩
        · rw [declOf_insert, a1]
          unfold declOf
          by_cases hm : m = n
          · subst hm
            simp
          · rw [if_neg hm, List.find?_cons_of_neg (by simpa using fun e => hm e.symm)]
        · intro e he hro
          rcases List.mem_cons.1 he with e' | e'
          · subst e'
            simp only [Bool.and_eq_true, not_and] at hr
            exact hr hro
          · exact a2 e e' hro

theorem setupBuiltin_ok (k : Name) (own : Own) : ∀ (l : List (Name × Decl)), (paths own.props).Nodup →
    (paths (setupBuiltin k own l).props).Nodup ∧
    (∀ n, declOf (setupBuiltin k own l).decls n = (declOf l n).or (declOf own.decls n)) ∧
    (setupBuiltin k own l).children = own.children ∧
    (∀ x, x ∈ paths (setupBuiltin k own l).props → x ∈ paths own.props ∨ ∃ e ∈ l, x = [e.1]) ∧
    (∀ m, hasOwn (setupBuiltin k own l).props [m] = true ↔
      hasOwn own.props [m] = true ∨ ∃ e ∈ l, e.1 = m) ∧
    (∀ p, get (setupBuiltin k own l).props p = get own.props p ++
      match p with
      | [n] => if l.any (fun e => e.1 = n) = true ∧ ¬ hasOwn own.props [n] = true then [.default n] else []
      | _ => [])
  | [], hnd => ⟨hnd, fun n => rfl, rfl, fun x hx => Or.inl hx, fun m => by simp [setupBuiltin], fun p => by
      unfold setupBuiltin
      match p with
      | [] => simp
      | [n] => simp
      | _ :: _ :: _ => simp⟩
  | (n, d) :: l, hnd => by
    obtain ⟨a1, a2, a3, a4, a5, a6⟩ := setupBuiltin_ok k own l hnd
    rw [setupBuiltin]
    simp only
    by_cases hh : hasOwn (setupBuiltin k own l).props [n] = true
    · rw [if_pos hh]
      refine ⟨a1, fun m => ?_, a3, fun x hx => ?_, fun m => ?_, fun p => ?_⟩
      · rw [declOf_insert, a2]
        unfold declOf
        by_cases hm : m = n
        · subst hm; simp
        · rw [if_neg hm, List.find?_cons_of_neg (by simpa using fun e => hm e.symm)]
      · rcases a4 x hx with e | ⟨e, he, he'⟩
        · exact Or.inl e
        · exact Or.inr ⟨e, List.mem_cons_of_mem _ he, he'⟩
      · rw [a5]
        constructor
        · rintro (e | ⟨e, he, he'⟩)
          · exact Or.inl e
          · exact Or.inr ⟨e, List.mem_cons_of_mem _ he, he'⟩
        · rintro (e | ⟨e, he, he'⟩)
          · exact Or.inl e
          · rcases List.mem_cons.1 he with e' | e'
            · subst e'
              simp only at he'
              subst he'
              exact (a5 n).1 hh
            · exact Or.inr ⟨e, e', he'⟩
      · rw [a6]
        match p with
        | [] => rfl
        | _ :: _ :: _ => rfl
        | [m] =>
          simp only
          congr 1
          by_cases hm : n = m
          · subst hm
            rcases (a5 n).1 hh with e | ⟨e, he, he'⟩
            · simp [e]
            · have : l.any (fun e => decide (e.1 = n)) = true := by
                simp only [List.any_eq_true, decide_eq_true_eq]
                exact ⟨e, he, he'⟩
              simp [this]
          · have hd : decide (n = m) = false := by simp [hm]
            rw [List.any_cons, hd, Bool.false_or]
    · rw [if_neg hh]
      have hn := not_hasOwn hh
      refine ⟨by simpa [paths] using nodup_snoc a1 hn, fun m => ?_, a3, fun x hx => ?_, fun m => ?_, fun p => ?_⟩
      · rw [declOf_insert, a2]
        unfold declOf
        by_cases hm : m = n
        · subst hm; simp
        · rw [if_neg hm, List.find?_cons_of_neg (by simpa using fun e => hm e.symm)]
      · simp only [paths, List.map_append, List.map_cons, List.map_nil, List.mem_append, List.mem_singleton] at hx
        rcases hx with e | e
        · rcases a4 x e with e | ⟨e, he, he'⟩
          · exact Or.inl e
          · exact Or.inr ⟨e, List.mem_cons_of_mem _ he, he'⟩
        · exact Or.inr ⟨(n, d), List.mem_cons_self, e⟩
      · have : hasOwn ((setupBuiltin k own l).props ++ [([n], [Src.default n])]) [m] = true ↔
            hasOwn (setupBuiltin k own l).props [m] = true ∨ n = m := by
          unfold hasOwn
          rw [List.any_append, Bool.or_eq_true]
          simp only [List.any_cons, List.any_nil, Bool.or_false, List.isPrefixOf, Bool.and_true, beq_iff_eq]
          rw [eq_comm (a := m)]
        rw [this, a5]
        constructor
        · rintro ((e | ⟨e, he, he'⟩) | e)
          · exact Or.inl e
          · exact Or.inr ⟨e, List.mem_cons_of_mem _ he, he'⟩
          · exact Or.inr ⟨(n, d), List.mem_cons_self, e⟩
        · rintro (e | ⟨e, he, he'⟩)
          · exact Or.inl (Or.inl e)
          · rcases List.mem_cons.1 he with e' | e'
            · subst e'; exact Or.inr he'
            · exact Or.inl (Or.inr ⟨e, e', he'⟩)
      · by_cases hp : [n] = p
        · subst hp
          have h1 : ¬ hasOwn own.props [n] = true := fun e => hh ((a5 n).2 (Or.inl e))
          rw [get_append_of_not_mem _ _ _ hn, get_not_mem _ _ (not_hasOwn h1)]
          simp [get, h1]
        · rw [get_append_other _ _ _ _ hp, a6]
          match p with
          | [] => rfl
          | _ :: _ :: _ => rfl
          | [m] =>
            have : n ≠ m := fun e => hp (by rw [e])
            have hd : decide (n = m) = false := by simp [this]
            simp only
            rw [List.any_cons, hd, Bool.false_or]

end Verif.Read
