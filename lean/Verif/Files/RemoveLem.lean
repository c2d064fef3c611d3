import Verif.Files.Lem
/-!
# Lemmas on removing files
-/
namespace Verif.Files

variable {e : Env}

theorem followN_leads {fs : FS} : ∀ {k : Nat} {p q : Path}, followN e fs k p = some q → Leads e fs p q
  | 0, _, _, h => by simp [followN] at h
  | k + 1, p, q, h => by
    simp only [followN] at h
    split at h
    · rename_i hp; exact .link hp (followN_leads h)
    · rename_i n hl hp
      simp only [Option.some.injEq] at h
      subst h
      exact .here hp (fun t ht => hl t ht)
    · simp at h

theorem follow_leads {fs : FS} {p q : Path} (h : follow e fs p = some q) : Leads e fs p q := followN_leads h

theorem Leads.exists {fs : FS} {p q : Path} (h : Leads e fs p q) : ∃ n, get fs q = some n ∧ ∀ t, n ≠ .link t := by
  induction h with
  | here h hl => exact ⟨_, h, hl⟩
  | link _ _ ih => exact ih

theorem Leads.source {fs : FS} {p q : Path} (h : Leads e fs p q) : get fs p ≠ none := by
  cases h with
  | here h hl => rw [h]; simp
  | link h _ => rw [h]; simp

theorem makeWritable_made {n : Node} (h : ∀ t, n ≠ .link t) : MadeWritable n n.makeWritable := by
  cases n with
  | file c w t => exact .file c w t
  | dir w t => exact .dir w t
  | link t => exact absurd rfl (h t)

theorem MadeWritable.trans {a b c : Node} (h : MadeWritable a b) (h' : MadeWritable b c) : MadeWritable a c := by
  cases h <;> cases h' <;> constructor

theorem MadeWritable.not_link {a b : Node} (h : MadeWritable a b) : (∀ t, a ≠ .link t) ∧ ∀ t, b ≠ .link t := by
  cases h <;> simp

/-- What may have happened after removing something at `p` -/
def Trimmed (e : Env) (p : Path) (fs fs' : FS) : Prop :=
  ∀ q, (p <+: q ∧ get fs' q = none) ∨ get fs' q = get fs q ∨
    ∃ l n n', p <+: l ∧ Leads e fs l q ∧ get fs q = some n ∧ get fs' q = some n' ∧ MadeWritable n n'

theorem Trimmed.refl (p : Path) (fs : FS) : Trimmed e p fs fs := fun _ => .inr (.inl rfl)

theorem Trimmed.none {p : Path} {fs fs' : FS} (h : Trimmed e p fs fs') {q : Path} (hq : get fs q = none) : get fs' q = none := by
  rcases h q with h | h | ⟨l, n, n', _, _, hn, _⟩
  · exact h.2
  · rw [h, hq]
  · rw [hq] at hn; simp at hn

theorem Trimmed.link {p : Path} {fs fs' : FS} (h : Trimmed e p fs fs') {q : Path} {t : String} (hq : get fs' q = some (.link t)) :
    get fs q = some (.link t) := by
  rcases h q with h | h | ⟨l, n, n', _, _, hn, hn', hm⟩
  · rw [hq] at h; simp at h
  · rw [← h, hq]
  · rw [hq] at hn'
    simp only [Option.some.injEq] at hn'
    exact absurd hn'.symm (hm.not_link.2 t)

theorem Trimmed.not_link {p : Path} {fs fs' : FS} (h : Trimmed e p fs fs') {q : Path} {n : Node} (hq : get fs' q = some n)
    (hl : ∀ t, n ≠ .link t) : ∃ m, get fs q = some m ∧ ∀ t, m ≠ .link t := by
  rcases h q with h | h | ⟨l, m, n', _, _, hn, _, hm⟩
  · rw [hq] at h; simp at h
  · exact ⟨n, by rw [← h, hq], hl⟩
  · exact ⟨m, hn, hm.not_link.1⟩

theorem Trimmed.leads {p : Path} {fs fs' : FS} (h : Trimmed e p fs fs') {l q : Path} (hl : Leads e fs' l q) : Leads e fs l q := by
  induction hl with
  | here h1 h2 =>
    obtain ⟨m, hm, hm'⟩ := h.not_link h1 h2
    exact .here hm hm'
  | link h1 _ ih => exact .link (h.link h1) ih

theorem Trimmed.trans {p : Path} {fs fs1 fs2 : FS} (h : Trimmed e p fs fs1) (h' : Trimmed e p fs1 fs2) : Trimmed e p fs fs2 := by
  intro q
  rcases h' q with h2 | h2 | ⟨l, n, n', hl, hle, hn, hn', hm⟩
  · exact .inl h2
  · rw [h2]; exact h q
  · rcases h q with h1 | h1 | ⟨l0, m, m', hl0, hle0, hm0, hm0', hmm⟩
    · rw [hn] at h1; simp at h1
    · exact .inr (.inr ⟨l, n, n', hl, h.leads hle, by rw [← h1, hn], hn', hm⟩)
    · rw [hn] at hm0'
      simp only [Option.some.injEq] at hm0'
      subst hm0'
      exact .inr (.inr ⟨l0, m, n', hl0, hle0, hm0, hn', hmm.trans hm⟩)

theorem Trimmed.mono {p p' : Path} (hp : p' <+: p) {fs fs' : FS} (h : Trimmed e p fs fs') : Trimmed e p' fs fs' := by
  intro q
  rcases h q with h | h | ⟨l, n, n', hl, h⟩
  · exact .inl ⟨hp.trans h.1, h.2⟩
  · exact .inr (.inl h)
  · exact .inr (.inr ⟨l, n, n', hp.trans hl, h⟩)

theorem Trimmed.kept {p : Path} {fs fs' : FS} (h : Trimmed e p fs fs') {q : Path} (hq : ¬ p <+: q) (hg : get fs q ≠ Option.none) :
    get fs' q ≠ Option.none := by
  rcases h q with h | h | ⟨l, n, n', _, _, _, hn', _⟩
  · exact absurd h.1 hq
  · rw [h]; exact hg
  · rw [hn']; simp

theorem Trimmed.dir {p : Path} {fs fs' : FS} (h : Trimmed e p fs fs') {q : Path} (hq : ¬ p <+: q) {w : Bool} {t : Nat}
    (hg : get fs q = some (.dir w t)) : ∃ w', get fs' q = some (.dir w' t) := by
  rcases h q with h | h | ⟨l, n, n', _, _, hn, hn', hm⟩
  · exact absurd h.1 hq
  · exact ⟨w, by rw [h, hg]⟩
  · rw [hg] at hn
    simp only [Option.some.injEq] at hn
    subst hn
    cases hm
    exact ⟨true, hn'⟩

theorem chmod_trimmed (p : Path) (s : St) : Trimmed e p s.fs (chmod e p s).fs := by
  unfold chmod
  split
  · exact Trimmed.refl _ _
  · rename_i q hq
    split
    · split
      · rename_i n hn
        intro r
        have hle := follow_leads hq
        obtain ⟨m, hm, hl⟩ := hle.exists
        rw [hn] at hm
        simp only [Option.some.injEq] at hm
        subst hm
        dsimp only
        rw [get_put]
        by_cases hr : r = q
        · subst hr
          exact .inr (.inr ⟨p, n, n.makeWritable, List.prefix_rfl, hle, hn, by simp, makeWritable_made hl⟩)
        · exact .inr (.inl (by simp [hr]))
      · exact Trimmed.refl _ _
    · exact Trimmed.refl _ _

theorem chmod_wf {p : Path} {s : St} (h : WF s.fs) : WF (chmod e p s).fs := by
  unfold chmod
  split
  · exact h
  · rename_i q hq
    split
    · split
      · rename_i n hn
        have key : ∀ r w t, get s.fs r = some (.dir w t) → ∃ w' t', get (put s.fs q n.makeWritable) r = some (.dir w' t') := by
          intro r w t hr
          rw [get_put]
          by_cases e1 : r = q
          · subst e1
            rw [hn] at hr
            simp only [Option.some.injEq] at hr
            subst hr
            exact ⟨true, t, by simp [Node.makeWritable]⟩
          · exact ⟨w, t, by simp [e1, hr]⟩
        constructor
        · obtain ⟨w, t, hr⟩ := h.root
          exact key _ _ _ hr
        · intro r m hm
          dsimp only at hm
          rw [get_put] at hm
          have : get s.fs (r ++ [m]) ≠ none := by
            split at hm
            · rename_i e1; rw [e1, hn]; simp
            · exact hm
          obtain ⟨w, t, hr⟩ := h.parents r m this
          exact key _ _ _ hr
      · exact h
    · exact h

theorem del_trimmed (p : Path) (fs : FS) : Trimmed e p fs (del fs p) := by
  intro q
  rw [get_del]
  by_cases h : q = p
  · subst h; exact .inl ⟨List.prefix_rfl, by simp⟩
  · exact .inr (.inl (by simp [h]))

theorem del_wf {fs : FS} (h : WF fs) {p : Path} (hp : p ≠ []) (hn : ∀ n, get fs (p ++ [n]) = none) : WF (del fs p) := by
  constructor
  · obtain ⟨w, t, hr⟩ := h.root
    exact ⟨w, t, by rw [get_del, if_neg (fun e => hp e.symm), hr]⟩
  · intro q n hq
    rw [get_del] at hq
    split at hq
    · simp at hq
    · obtain ⟨w, t, hd⟩ := h.parents q n hq
      refine ⟨w, t, ?_⟩
      rw [get_del, if_neg, hd]
      intro e1
      subst e1
      exact hq (hn n)

theorem WF.leaf {fs : FS} (h : WF fs) {p : Path} (hp : ∀ w t, get fs p ≠ some (.dir w t)) (n : Name) : get fs (p ++ [n]) = none := by
  cases hg : get fs (p ++ [n]) with
  | none => rfl
  | some m =>
    obtain ⟨w, t, hd⟩ := h.parents p n (by rw [hg]; simp)
    exact absurd hd (hp w t)

/-- What `unlink` does -/
theorem unlink_cases (p : Path) (s : St) :
    ((unlink e p s).1 = true ∧ (unlink e p s).2 = { s with fs := del s.fs p, step := s.step + 1 } ∧
      e.ok s.step (.unlink p) = true ∧ ∃ n, get s.fs p = some n ∧ ∀ w t, n ≠ .dir w t) ∨
    ((unlink e p s).1 = false ∧ (unlink e p s).2 = { s with step := s.step + 1 } ∧
      ((∃ n, get s.fs p = some n ∧ ∀ w t, n ≠ .dir w t) → e.ok s.step (.unlink p) = false)) := by
  unfold unlink
  split
  · rename_i c w t h
    split
    · rename_i ho; exact .inl ⟨rfl, rfl, ho, _, h, by simp⟩
    · rename_i ho; exact .inr ⟨rfl, rfl, fun _ => by simpa using ho⟩
  · rename_i t h
    split
    · rename_i ho; exact .inl ⟨rfl, rfl, ho, _, h, by simp⟩
    · rename_i ho; exact .inr ⟨rfl, rfl, fun _ => by simpa using ho⟩
  · rename_i h1 h2
    refine .inr ⟨rfl, rfl, ?_⟩
    rintro ⟨n, hn, hd⟩
    cases n with
    | file c w t => exact absurd hn (h1 c w t)
    | link t => exact absurd hn (h2 t)
    | dir w t => exact absurd rfl (hd w t)

theorem rmdir_cases (p : Path) (s : St) :
    ((rmdir e p s).1 = true ∧ (rmdir e p s).2 = { s with fs := del s.fs p, step := s.step + 1 } ∧
      names s.fs p = [] ∧ e.ok s.step (.rmdir p) = true ∧ ∃ w t, get s.fs p = some (.dir w t)) ∨
    ((rmdir e p s).1 = false ∧ (rmdir e p s).2 = { s with step := s.step + 1 } ∧
      (names s.fs p = [] → (∃ w t, get s.fs p = some (.dir w t)) → e.ok s.step (.rmdir p) = false)) := by
  unfold rmdir
  split
  · rename_i w t h
    split
    · rename_i ho; exact .inl ⟨rfl, rfl, ho.1, ho.2, _, _, h⟩
    · rename_i ho
      refine .inr ⟨rfl, rfl, fun hn _ => ?_⟩
      rw [hn] at ho
      simpa using ho
  · rename_i h
    exact .inr ⟨rfl, rfl, fun _ ⟨w, t, hd⟩ => absurd hd (h w t)⟩

/-! ## Directories and what is in them -/

/-- Paths are not that long. -/
def Bound (fs : FS) (d : Nat) : Prop := ∀ q, get fs q ≠ none → q.length < d

theorem Trimmed.bound {p : Path} {fs fs' : FS} (h : Trimmed e p fs fs') {d : Nat} (hb : Bound fs d) : Bound fs' d :=
  fun q hq => hb q (fun hn => hq (h.none hn))

/-- What holds after removing something: the result is `b`. -/
structure Removed (e : Env) (p : Path) (s : St) (b : Bool) (s' : St) : Prop where
  wf : WF s'.fs
  trimmed : Trimmed e p s.fs s'.fs
  gone : b = true ↔ get s'.fs p = none
  errors : ∃ l, s'.errors = s.errors ++ l ∧ (b = true ↔ l = []) ∧ ∀ q ∈ l, p <+: q ∧ get s'.fs q ≠ none
  succeeds : (∀ n q, p <+: q → e.ok n (.unlink q) = true ∧ e.ok n (.rmdir q) = true) → b = true

/-- The same for the loop -/
structure RemovedIn (e : Env) (p : Path) (l : List Name) (s s' : St) : Prop where
  wf : WF s'.fs
  trimmed : Trimmed e p s.fs s'.fs
  kept : ∀ q, (∀ n ∈ l, ¬ (p ++ [n]) <+: q) → get s.fs q ≠ none → get s'.fs q ≠ none
  dir : ∀ w t, get s.fs p = some (.dir w t) → ∃ w', get s'.fs p = some (.dir w' t)
  errors : ∃ m, s'.errors = s.errors ++ m ∧ ∀ q ∈ m, (∃ n ∈ l, (p ++ [n]) <+: q) ∧ get s'.fs q ≠ none
  succeeds : (∀ n q, p <+: q → e.ok n (.unlink q) = true ∧ e.ok n (.rmdir q) = true) → ∀ n ∈ l, get s'.fs (p ++ [n]) = none

theorem not_prefix_child (p : Path) (n : Name) : ¬ (p ++ [n]) <+: p := by
  rintro ⟨r, hr⟩
  have := congrArg List.length hr
  simp at this

theorem prefix_child (p : Path) (n : Name) : p <+: p ++ [n] := ⟨[n], rfl⟩

theorem child_eq {p q : Path} {n m : Name} (h : (p ++ [n]) <+: q) (h' : (p ++ [m]) <+: q) : n = m := by
  obtain ⟨r, hr⟩ := h
  obtain ⟨r', hr'⟩ := h'
  rw [← hr', List.append_assoc, List.append_assoc] at hr
  have := List.append_cancel_left hr
  simp at this
  exact this.1

theorem each_removed {f : Path → St → Bool × St} {p : Path} {d : Nat}
    (hf : ∀ n s, WF s.fs → Bound s.fs d → Removed e (p ++ [n]) s (f (p ++ [n]) s).1 (f (p ++ [n]) s).2) :
    ∀ (l : List Name) (s : St), l.Nodup → WF s.fs → Bound s.fs d → RemovedIn e p l s (each f p l s)
  | [], s, _, hw, _ => ⟨hw, Trimmed.refl _ _, fun _ _ h => h, fun w t h => ⟨w, h⟩, ⟨[], by simp [each], by simp⟩, by simp⟩
  | n :: l, s, hnd, hw, hb => by
    rw [List.nodup_cons] at hnd
    have h1 := hf n s hw hb
    have h2 := each_removed hf l _ hnd.2 h1.wf (h1.trimmed.bound hb)
    simp only [each]
    generalize hs1 : (f (p ++ [n]) s).2 = s1 at h1 h2
    refine ⟨h2.wf, (h1.trimmed.mono (prefix_child p n)).trans h2.trimmed, ?_, ?_, ?_, ?_⟩
    · intro q hq hg
      exact h2.kept q (fun m hm => hq m (List.mem_cons_of_mem _ hm)) (h1.trimmed.kept (hq n List.mem_cons_self) hg)
    · intro w t hd
      obtain ⟨w1, hd1⟩ := h1.trimmed.dir (not_prefix_child p n) hd
      exact h2.dir _ _ hd1
    · obtain ⟨m1, he1, _, hm1⟩ := h1.errors
      obtain ⟨m2, he2, hm2⟩ := h2.errors
      refine ⟨m1 ++ m2, by rw [he2, he1, List.append_assoc], ?_⟩
      intro q hq
      rcases List.mem_append.mp hq with hq | hq
      · refine ⟨⟨n, List.mem_cons_self, (hm1 q hq).1⟩, h2.kept q ?_ (hm1 q hq).2⟩
        intro m hm hp
        rw [← child_eq (hm1 q hq).1 hp] at hm
        exact hnd.1 hm
      · obtain ⟨⟨m, hm, hp⟩, hg⟩ := hm2 q hq
        exact ⟨⟨m, List.mem_cons_of_mem _ hm, hp⟩, hg⟩
    · intro hok m hm
      rcases List.mem_cons.mp hm with rfl | hm
      · have : (f (p ++ [m]) s).1 = true := h1.succeeds (fun k q hq => hok k q ((prefix_child p m).trans hq))
        exact h2.trimmed.none (h1.gone.mp this)
      · exact h2.succeeds hok m hm

theorem unlink_removed {p : Path} {s : St} {n : Node} (hp : p ≠ []) (hw : WF s.fs) (hn : get s.fs p = some n)
    (hd : ∀ w t, n ≠ .dir w t) :
    Removed e p s (if (unlink e p (chmod e p s)).1 then unlink e p (chmod e p s) else
        (false, fail p (unlink e p (chmod e p s)).2)).1
      (if (unlink e p (chmod e p s)).1 then unlink e p (chmod e p s) else (false, fail p (unlink e p (chmod e p s)).2)).2 := by
  have hw1 := chmod_wf (e := e) (p := p) hw
  have ht1 := chmod_trimmed (e := e) p s
  have herr : (chmod e p s).errors = s.errors := by
    unfold chmod; split <;> try rfl
    split <;> try rfl
    split <;> rfl
  have hn1 : ∃ n', get (chmod e p s).fs p = some n' ∧ ∀ w t, n' ≠ .dir w t := by
    have hex : get (chmod e p s).fs p ≠ none := by
      unfold chmod
      split
      · rw [hn]; simp
      · split
        · split
          · dsimp only; rw [get_put]; split
            · simp
            · rw [hn]; simp
          · rw [hn]; simp
        · rw [hn]; simp
    rcases ht1 p with h | h | ⟨l, m, m', _, _, hm, hm', hmm⟩
    · exact absurd h.2 hex
    · exact ⟨n, by rw [h, hn], hd⟩
    · rw [hn] at hm
      simp only [Option.some.injEq] at hm
      subst hm
      refine ⟨m', hm', ?_⟩
      cases hmm
      · simp
      · exact absurd rfl (hd _ _)
  generalize chmod e p s = s1 at *
  rcases unlink_cases (e := e) p s1 with ⟨hb, hs, _, _⟩ | ⟨hb, hs, hr⟩
  · rw [if_pos hb, hb, hs]
    refine ⟨del_wf hw1 hp (hw1.leaf ?_), ht1.trans (del_trimmed _ _), ?_, ⟨[], by simp [herr], by simp, by simp⟩, by simp⟩
    · obtain ⟨n', hn', hd'⟩ := hn1
      intro w t h
      rw [hn'] at h
      simp only [Option.some.injEq] at h
      exact hd' w t h
    · simp [get_del]
  · have hb' : ¬ (unlink e p s1).1 = true := by rw [hb]; simp
    rw [if_neg hb', hs]
    obtain ⟨n', hn', hd'⟩ := hn1
    refine ⟨hw1, ht1, ?_, ⟨[p], by simp [fail, herr], by simp, ?_⟩, ?_⟩
    · simp [fail, hn']
    · intro q hq
      simp only [List.mem_singleton] at hq
      subst hq
      exact ⟨List.prefix_rfl, by simp [fail, hn']⟩
    · intro hok
      have := hr ⟨n', hn', hd'⟩
      rw [(hok _ p List.prefix_rfl).1] at this
      simp at this

theorem nodup_eraseDups : ∀ (n : Nat) (l : List Name), l.length ≤ n → l.eraseDups.Nodup := by
  intro n
  induction n with
  | zero =>
    intro l hl
    have : l = [] := by simpa using hl
    subst this; simp
  | succ n ih =>
    intro l hl
    cases l with
    | nil => simp
    | cons a l =>
      rw [List.eraseDups_cons, List.nodup_cons]
      refine ⟨?_, ih _ ?_⟩
      · rw [List.mem_eraseDups]; simp
      · have := List.length_filter_le (fun b => !b == a) l
        simp only [List.length_cons] at hl
        omega

theorem names_nodup (fs : FS) (p : Path) : (names fs p).Nodup := nodup_eraseDups _ _ (Nat.le_refl _)

theorem removeRec_removed (he : Lists e) {d : Nat} : ∀ (k : Nat) (p : Path) (s : St), p ≠ [] → WF s.fs → Bound s.fs d → d ≤ k + p.length →
    Removed e p s (removeRec e k p s).1 (removeRec e k p s).2
  | 0, p, s, _, hw, hb, hk => by
    have hg : get s.fs p = none := by
      cases hg : get s.fs p with
      | none => rfl
      | some n =>
        have := hb p (by rw [hg]; simp)
        omega
    exact ⟨hw, Trimmed.refl _ _, by simp [removeRec, hg], ⟨[], by simp [removeRec], by simp [removeRec], by simp⟩, by simp [removeRec]⟩
  | k + 1, p, s, hp, hw, hb, hk => by
    simp only [removeRec]
    split
    · rename_i hg
      exact ⟨hw, Trimmed.refl _ _, by simp [hg], ⟨[], by simp, by simp, by simp⟩, by simp⟩
    · rename_i w t hg
      have hl := each_removed (e := e) (f := removeRec e k) (p := p) (d := d) (fun n s hw hb =>
        removeRec_removed he k (p ++ [n]) s (by simp) hw hb (by simp; omega)) (e.order (names s.fs p)) s
        ((he _).nodup_iff.mpr (names_nodup _ _)) hw hb
      generalize each (removeRec e k) p (e.order (names s.fs p)) s = s1 at hl
      obtain ⟨m, hm, hm'⟩ := hl.errors
      obtain ⟨w', hd⟩ := hl.dir w t hg
      rcases rmdir_cases (e := e) p s1 with ⟨hr, hs, hn, _, _⟩ | ⟨hr, hs, hno⟩
      · rw [if_pos hr, hr, hs]
        have hmn : m = [] := by
          cases m with
          | nil => rfl
          | cons q m =>
            obtain ⟨⟨n, _, hpq⟩, hg'⟩ := hm' q List.mem_cons_self
            exact absurd (hl.wf.below (names_nil.mp hn n) hpq) hg'
        refine ⟨del_wf hl.wf hp (names_nil.mp hn), hl.trimmed.trans (del_trimmed _ _), by simp [get_del], ⟨[], ?_, by simp, by simp⟩,
          by simp⟩
        rw [hm, hmn]
      · have hr' : ¬ (rmdir e p s1).1 = true := by rw [hr]; simp
        rw [if_neg hr', hs]
        refine ⟨hl.wf, hl.trimmed, by simp [fail, hd], ⟨m ++ [p], by simp [fail, hm], by simp, ?_⟩, ?_⟩
        · intro q hq
          rcases List.mem_append.mp hq with hq | hq
          · obtain ⟨⟨n, _, hpq⟩, hg'⟩ := hm' q hq
            exact ⟨(prefix_child p n).trans hpq, hg'⟩
          · simp only [List.mem_singleton] at hq
            subst hq
            exact ⟨List.prefix_rfl, by simp [fail, hd]⟩
        · intro hok
          have hnn : names s1.fs p = [] := names_nil.mpr (fun n => by
            cases hgn : get s.fs (p ++ [n]) with
            | none => exact hl.trimmed.none hgn
            | some x =>
              exact hl.succeeds hok n ((he _).mem_iff.mpr (mem_names.mpr (by rw [hgn]; simp))))
          have := hno hnn ⟨_, _, hd⟩
          rw [(hok _ p List.prefix_rfl).2] at this
          simp at this
    · rename_i n hnd hg
      exact unlink_removed hp hw hg (fun w t h => hnd w t (by rw [h]))

end Verif.Files
