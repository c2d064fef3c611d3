import Verif.Link.Lem1
/-!
# What holds while the dependencies are visited
-/
namespace Verif.Link

/-! ## Descendants -/

inductive Desc : Dep → Dep → Prop
  | one (e d : Dep) : d ∈ e.deps → Desc e d
  | more (e x d : Dep) : Desc e x → d ∈ x.deps → Desc e d

theorem size_child {e d : Dep} (h : d ∈ e.deps) : sizeOf d < sizeOf e := by
  cases e with
  | mk p q l =>
    have := List.sizeOf_lt_of_mem (show d ∈ l from h)
    simp only [Dep.mk.sizeOf_spec]
    omega

theorem size_desc {e d : Dep} (h : Desc e d) : sizeOf d < sizeOf e := by
  induction h with
  | one d h => exact size_child h
  | more x d _ h ih => exact Nat.lt_trans (size_child h) ih

theorem desc_same {e d f : Dep} (h : Desc e d) (hf : e.deps = f.deps) : Desc f d := by
  induction h with
  | one d h => exact .one f d (hf ▸ h)
  | more x d _ h ih => exact .more f x d ih h

theorem desc_head {e x d : Dep} (h : x ∈ e.deps) (hd : Desc x d) : Desc e d := by
  induction hd with
  | one d h' => exact .more e x d (.one e x h) h'
  | more y d _ h' ih => exact .more e y d ih h'

theorem in_desc {roots : List Dep} {e d : Dep} (he : In roots e) (h : Desc e d) : In roots d := by
  induction h with
  | one d h => exact .child _ _ he h
  | more x d _ h ih => exact .child _ _ ih h

theorem desc_name {external : List Str} {roots : List Dep} (hf : Fine external roots) {e d : Dep} (he : In roots e)
    (h : Desc e d) : d.name ≠ e.name := by
  intro hn
  have := size_desc (desc_same h (hf.same e d he (in_desc he h) hn.symm).2)
  exact Nat.lt_irrefl _ this

/-! ## Ways -/

inductive Chain : Dep → Dep → Prop
  | refl (d : Dep) : Chain d d
  | step (e x d : Dep) : Step e x → Chain x d → Chain e d

theorem Step.congr {e f d : Dep} (h : Step e d) (hn : e.name = f.name) (hd : e.deps = f.deps) : Step f d :=
  ⟨hd ▸ h.1, hn ▸ h.2.1, h.2.2⟩

theorem linked_in {roots : List Dep} {d : Dep} (h : Linked roots d) : In roots d := by
  induction h with
  | root d h _ => exact .root d h
  | step e d _ _ h ih => exact .child e d ih h.1

theorem hidden_in {roots : List Dep} {d : Dep} (h : Hidden roots d) : In roots d := by
  induction h with
  | under e d h _ hs => exact .child e d (linked_in h) hs.1
  | step e d _ h ih => exact .child e d ih h.1

theorem linked_links {roots : List Dep} {d : Dep} (h : Linked roots d) : d.Links := by
  cases h with
  | root d _ h => exact h
  | step e d _ _ h => exact h.2.2

theorem hidden_links {roots : List Dep} {d : Dep} (h : Hidden roots d) : d.Links := by
  cases h with
  | under e d _ _ h => exact h.2.2
  | step e d _ h => exact h.2.2

/-! ## The invariant -/

/-- What an entry in the first part of the list stands for. -/
def Stands (roots : List Dep) (pub priv : List Str) (o : Obj) : Prop :=
  (∃ d, Linked roots d ∧ o.path ∈ d.prod.files ∧ d.name ∈ pub ∧ o = ⟨o.path, true, d.params.whole, d.params.mode⟩) ∨
  (∃ d, Hidden roots d ∧ d.prod.kind = some .dynamic ∧ o.path ∈ d.prod.files ∧ d.name ∈ priv ∧ d.name ∉ pub ∧
    o.direct = false)

structure Inv (c : Cfg) (external : List Str) (roots : List Dep) (st : St) (G B : List Obj) : Prop where
  split : st.objects = G ++ B
  nodup : (paths G).Nodup
  stands : ∀ o ∈ G, Stands roots st.pub st.priv o
  outside : ∀ o ∈ B, ∃ d, Linked roots d ∧ d.prod.kind ≠ some .dynamic ∧ c.importPrivate = true ∧
    ∃ p ∈ d.prod.external, o = ext p
  once : c.dedup = true → (paths B).Nodup
  pubLinked : ∀ n ∈ st.pub, ∃ d, Linked roots d ∧ d.name = n
  privHidden : ∀ n ∈ st.priv, ∃ d, Hidden roots d ∧ d.prod.kind = some .dynamic ∧ d.name = n
  present : ∀ d, In roots d → d.name ∈ st.pub → d.prod.kind ≠ some .object → ∀ p ∈ d.prod.files, p ∈ paths G
  objects : ∀ d, In roots d → d.name ∈ st.pub → (∀ e, Consumed roots e → e.name ≠ d.name) →
    ∀ p ∈ d.prod.files, p ∈ paths G
  presentPriv : ∀ d, In roots d → d.name ∈ st.priv → ∀ p ∈ d.prod.files, p ∈ paths G
  closed : ∀ e d, In roots e → e.name ∈ st.pub → e.prod.kind ≠ some .dynamic → Step e d → d.name ∈ st.pub
  reach : ∀ e d, In roots e → e.name ∈ st.pub ∨ e.name ∈ st.priv → Chain e d → d.prod.kind = some .dynamic →
    d.name ∈ st.pub ∨ d.name ∈ st.priv
  order : ∀ e d, In roots e → e.name ∈ st.pub → e.prod.kind ≠ some .dynamic → Step e d → ∀ p ∈ e.prod.files,
    ∀ q ∈ d.prod.files, p ∈ paths G → q ∈ paths G → Before (paths G) p q
  imported : ∀ d, In roots d → d.name ∈ st.pub → d.prod.kind ≠ some .dynamic → c.importPrivate = true →
    ∀ p ∈ d.prod.external, p ∈ paths B

theorem before_append {l : List Str} {p q : Str} (N : List Str) (h : Before l p q) : Before (N ++ l) p q := by
  obtain ⟨a, b, c, rfl⟩ := h
  exact ⟨N ++ a, b, c, by simp⟩

theorem before_split {l : List Str} {p q : Str} {N : List Str} (hp : p ∈ N) (hq : q ∈ l) : Before (N ++ l) p q := by
  obtain ⟨a, b, rfl⟩ := List.append_of_mem hp
  obtain ⟨x, y, rfl⟩ := List.append_of_mem hq
  exact ⟨a, b ++ x, y, by simp⟩

/-- Has everything been visited that a call for the dependency visits? -/
def Done (st : St) (d : Dep) (below : Bool) : Prop :=
  (below = false → d.name ∈ st.pub) ∧
  ∀ x, Chain d x → x.prod.kind = some .dynamic → x.name ∈ st.pub ∨ x.name ∈ st.priv

def Grows (st st' : St) : Prop := (∀ n ∈ st.pub, n ∈ st'.pub) ∧ ∀ n ∈ st.priv, n ∈ st'.priv

theorem Grows.refl (st : St) : Grows st st := ⟨fun _ h => h, fun _ h => h⟩

theorem Grows.trans {a b c : St} (h : Grows a b) (h' : Grows b c) : Grows a c :=
  ⟨fun n hn => h'.1 n (h.1 n hn), fun n hn => h'.2 n (h.2 n hn)⟩

theorem Done.mono {st st' : St} {d : Dep} {below : Bool} (h : Done st d below) (hg : Grows st st') : Done st' d below :=
  ⟨fun hb => hg.1 _ (h.1 hb), fun x hx hk => (h.2 x hx hk).imp (hg.1 _) (hg.2 _)⟩

/-- Where a call for the dependency comes from. -/
structure Ctx (roots : List Dep) (d : Dep) (below consumed : Bool) : Prop where
  isIn : In roots d
  linked : below = false → d.Links → Linked roots d
  consumed : below = false → consumed = true → d.Links → Consumed roots d
  hidden : below = true → d.Links → Hidden roots d

section
variable {c : Cfg} {external : List Str} {roots : List Dep}

theorem apart_B (hf : Fine external roots) {st : St} {G B : List Obj} (hi : Inv c external roots st G B) {e : Dep}
    (he : In roots e) : ∀ p ∈ e.prod.files, p ∉ paths B := by
  intro p hp hm
  obtain ⟨o, ho, rfl⟩ := List.mem_map.mp hm
  obtain ⟨d, hd, _, _, x, hx, rfl⟩ := hi.outside o ho
  exact (hf.apart e _ he hp).2 d (linked_in hd) hx

theorem fresh_G (hf : Fine external roots) {st : St} {G B : List Obj} (hi : Inv c external roots st G B) {e : Dep}
    (he : In roots e) (hp : e.name ∉ st.pub) (hk : e.prod.kind ≠ some .dynamic) : ∀ p ∈ e.prod.files, p ∉ paths G := by
  intro p hpe hm
  obtain ⟨o, ho, rfl⟩ := List.mem_map.mp hm
  rcases hi.stands o ho with ⟨d, hd, h1, h2, _⟩ | ⟨d, hd, hdk, h1, h2, _⟩
  · exact hp (hf.distinct d e _ (linked_in hd) he h1 hpe ▸ h2)
  · have hn := hf.distinct d e _ (hidden_in hd) he h1 hpe
    rw [(hf.same d e (hidden_in hd) he hn).1] at hdk
    exact hk hdk

theorem stands_of_mem (hf : Fine external roots) {st : St} {G B : List Obj} (hi : Inv c external roots st G B) {e : Dep}
    (he : In roots e) {p : Str} (hpe : p ∈ e.prod.files) (hm : p ∈ paths G) : e.name ∈ st.pub ∨ e.name ∈ st.priv := by
  obtain ⟨o, ho, rfl⟩ := List.mem_map.mp hm
  rcases hi.stands o ho with ⟨d, hd, h1, h2, _⟩ | ⟨d, hd, hdk, h1, h2, _⟩
  · exact .inl (hf.distinct d e _ (linked_in hd) he h1 hpe ▸ h2)
  · exact .inr (hf.distinct d e _ (hidden_in hd) he h1 hpe ▸ h2)

/-- Leaving a static or object library that is not below a dynamic one. -/
theorem leave_static (hf : Fine external roots) {st : St} {G B : List Obj} (hi : Inv c external roots st G B) {e : Dep}
    (he : Linked roots e) {k : Kind} (hk : e.prod.kind = some k) (hkd : k ≠ .dynamic) (hp : e.name ∉ st.pub)
    (consumed : Bool) (hc : consumed = true → Consumed roots e) (hch : ∀ d, Step e d → Done st d false) :
    ∃ G' B', Inv c external roots (leave c e.prod e.params false consumed st) G' B' ∧
      (leave c e.prod e.params false consumed st).pub = e.name :: st.pub ∧
      (leave c e.prod e.params false consumed st).priv = st.priv := by
  have hin := linked_in he
  have hkn : e.prod.kind ≠ some .dynamic := by rw [hk]; intro h; exact hkd (Option.some.inj h)
  have hleave : leave c e.prod e.params false consumed st = { st with
      objects := if c.importPrivate then addExternal c e.prod.external
        (if k = .static ∨ consumed = false then e.prod.files.foldl (addPublic c e.params) st.objects else st.objects)
        else (if k = .static ∨ consumed = false then e.prod.files.foldl (addPublic c e.params) st.objects else st.objects)
      pub := e.prod.name :: st.pub } := by
    unfold leave
    rw [hk]
    cases k with
    | static => rfl
    | object => rfl
    | dynamic => exact absurd rfl hkd
  -- the first part
  have hG : ∃ G', (if k = .static ∨ consumed = false then e.prod.files.foldl (addPublic c e.params) st.objects
      else st.objects) = G' ++ B ∧ (paths G').Nodup ∧ (∀ o ∈ G', o ∈ G ∨ (o.path ∈ e.prod.files ∧
        o = ⟨o.path, true, e.params.whole, e.params.mode⟩)) ∧ (k = .static ∨ consumed = false → ∀ p ∈ e.prod.files, p ∈ paths G') ∧
      ∃ N, paths G' = N ++ paths G ∧ ∀ p ∈ N, p ∈ e.prod.files := by
    by_cases hd : k = .static ∨ consumed = false
    · rw [if_pos hd, hi.split]
      obtain ⟨G', h1, ha⟩ := fold_public c e.params B e.prod.files G hi.nodup (apart_B hf hi hin)
      refine ⟨G', h1, ha.nodup, ?_, fun _ => ha.all, ha.front⟩
      intro o ho
      rcases ha.only o ho with h | h
      · exact .inl h.1
      · exact .inr h
    · rw [if_neg hd, hi.split]
      exact ⟨G, rfl, hi.nodup, fun o ho => .inl ho, fun h => absurd h hd, [], rfl, by simp⟩
  obtain ⟨G', hG1, hG2, hG3, hG4, N, hN, hN'⟩ := hG
  have hfresh := fresh_G hf hi hin hp hkn
  have hmono : ∀ p ∈ paths G, p ∈ paths G' := fun p h => by rw [hN]; exact List.mem_append_right _ h
  have hfiles : ∀ p ∈ paths G', p ∈ paths G ∨ p ∈ e.prod.files := by
    intro p h
    rw [hN] at h
    rcases List.mem_append.mp h with h | h
    · exact .inr (hN' p h)
    · exact .inl h
  -- the second part
  have hlib : ∀ p ∈ e.prod.external, p ∉ paths G' := by
    intro p h hm
    obtain ⟨o, ho, rfl⟩ := List.mem_map.mp hm
    rcases hG3 o ho with ho | ⟨h1, _⟩
    · rcases hi.stands o ho with ⟨d, hd, h1, _⟩ | ⟨d, hd, _, h1, _⟩
      · exact (hf.apart d _ (linked_in hd) h1).2 e hin h
      · exact (hf.apart d _ (hidden_in hd) h1).2 e hin h
    · exact (hf.apart e _ hin h1).2 e hin h
  have hB : ∃ B', (if c.importPrivate then addExternal c e.prod.external (G' ++ B) else G' ++ B) = G' ++ B' ∧
      (c.dedup = true → (paths B').Nodup) ∧ (∀ o ∈ B', o ∈ B ∨ (c.importPrivate = true ∧ ∃ p ∈ e.prod.external, o = ext p)) ∧
      (c.importPrivate = true → ∀ p ∈ e.prod.external, p ∈ paths B') ∧ ∀ p ∈ paths B, p ∈ paths B' := by
    by_cases hip : c.importPrivate = true
    · rw [if_pos hip]
      obtain ⟨B', h1, ha⟩ := fold_external c G' e.prod.external B hi.once hlib
      refine ⟨B', h1, ha.nodup, ?_, fun _ => ha.all, ha.kept⟩
      intro o ho
      rcases ha.only o ho with h | h
      · exact .inl h
      · exact .inr ⟨hip, h⟩
    · rw [if_neg hip]
      exact ⟨B, rfl, hi.once, fun o ho => .inl ho, fun h => absurd h hip, fun p h => h⟩
  obtain ⟨B', hB1, hB2, hB3, hB4, hB5⟩ := hB
  refine ⟨G', B', ?_, by rw [hleave]; rfl, by rw [hleave]⟩
  rw [hleave]
  have same : ∀ d, In roots d → d.name = e.name → d.prod = e.prod ∧ d.deps = e.deps := fun d h1 h2 => hf.same d e h1 hin h2
  refine ⟨?_, hG2, ?_, ?_, hB2, ?_, hi.privHidden, ?_, ?_, ?_, ?_, ?_, ?_, ?_⟩
  · show (if _ then _ else _) = _
    rw [hG1, hB1]
  · intro o ho
    rcases hG3 o ho with ho | ⟨h1, h2⟩
    · rcases hi.stands o ho with ⟨d, hd, h1, h2, h3⟩ | ⟨d, hd, hdk, h1, h2, h3, h4⟩
      · exact .inl ⟨d, hd, h1, List.mem_cons_of_mem _ h2, h3⟩
      · refine .inr ⟨d, hd, hdk, h1, h2, ?_, h4⟩
        simp only [List.mem_cons, not_or]
        refine ⟨?_, h3⟩
        intro hn
        rw [(same d (hidden_in hd) hn).1] at hdk
        exact hkn hdk
    · exact .inl ⟨e, he, h1, List.mem_cons_self, h2⟩
  · intro o ho
    rcases hB3 o ho with ho | ⟨h1, p, hp', rfl⟩
    · exact hi.outside o ho
    · exact ⟨e, he, hkn, h1, p, hp', rfl⟩
  · intro n hn
    rcases List.mem_cons.mp hn with rfl | hn
    · exact ⟨e, he, rfl⟩
    · exact hi.pubLinked n hn
  · intro d hd hn hko p hpd
    rcases List.mem_cons.mp hn with hn | hn
    · have hs := (same d hd hn).1
      rw [hs] at hko hpd
      have : k = .static := by
        rw [hk] at hko
        cases k with
        | static => rfl
        | object => exact absurd rfl hko
        | dynamic => exact absurd rfl hkd
      exact hG4 (.inl this) p hpd
    · exact hmono p (hi.present d hd hn hko p hpd)
  · intro d hd hn hco p hpd
    rcases List.mem_cons.mp hn with hn | hn
    · have hs := (same d hd hn).1
      rw [hs] at hpd
      refine hG4 (.inr ?_) p hpd
      cases hcc : consumed with
      | false => rfl
      | true => exact absurd hn.symm (hco e (hc hcc))
    · exact hmono p (hi.objects d hd hn hco p hpd)
  · intro d hd hn p hpd
    exact hmono p (hi.presentPriv d hd hn p hpd)
  · intro x d hx hn hxk hs
    rcases List.mem_cons.mp hn with hn | hn
    · exact List.mem_cons_of_mem _ ((hch d (hs.congr hn (same x hx hn).2)).1 rfl)
    · exact List.mem_cons_of_mem _ (hi.closed x d hx hn hxk hs)
  · intro x d hx hn hcd hdk
    have lift : d.name ∈ st.pub ∨ d.name ∈ st.priv → d.name ∈ e.prod.name :: st.pub ∨ d.name ∈ st.priv :=
      fun h => h.imp (List.mem_cons_of_mem _) id
    by_cases hxe : x.name = e.name
    · cases hcd with
      | refl d => exact .inl (by rw [hxe]; exact List.mem_cons_self)
      | step _ y _ hs hcd' => exact lift ((hch y (hs.congr hxe (same x hx hxe).2)).2 d hcd' hdk)
    · refine lift (hi.reach x d hx ?_ hcd hdk)
      rcases hn with hn | hn
      · rcases List.mem_cons.mp hn with hn | hn
        · exact absurd hn hxe
        · exact .inl hn
      · exact .inr hn
  · intro x d hx hn hxk hs p hpx q hqd hpG hqG
    have hdin : In roots d := .child x d hx hs.1
    rcases List.mem_cons.mp hn with hn | hn
    · -- the library itself
      rw [(same x hx hn).1] at hpx
      have hq : q ∈ paths G := by
        rcases hfiles q hqG with h | h
        · exact h
        · exact absurd (hf.distinct d e q hdin hin hqd h) (fun h' => hs.2.1 (h'.trans hn.symm))
      have hpN : p ∈ N := by
        rw [hN] at hpG
        rcases List.mem_append.mp hpG with h | h
        · exact h
        · exact absurd h (hfresh p hpx)
      rw [hN]
      exact before_split hpN hq
    · have hdp := hi.closed x d hx hn hxk hs
      have hp' : p ∈ paths G := by
        rcases hfiles p hpG with h | h
        · exact h
        · exact absurd (hf.distinct x e p hx hin hpx h ▸ hn) hp
      have hq' : q ∈ paths G := by
        rcases hfiles q hqG with h | h
        · exact h
        · exact absurd (hf.distinct d e q hdin hin hqd h ▸ hdp) hp
      rw [hN]
      exact before_append N (hi.order x d hx hn hxk hs p hpx q hqd hp' hq')
  · intro d hd hn hdk hip p hpd
    rcases List.mem_cons.mp hn with hn | hn
    · rw [(same d hd hn).1] at hpd
      exact hB4 hip p hpd
    · exact hB5 p (hi.imported d hd hn hdk hip p hpd)

/-- Leaving a dynamic library that is linked against. -/
theorem leave_dynamic (hf : Fine external roots) {st : St} {G B : List Obj} (hi : Inv c external roots st G B) {e : Dep}
    (he : Linked roots e) (hk : e.prod.kind = some .dynamic) (hp : e.name ∉ st.pub)
    (consumed : Bool) (hch : ∀ d, Step e d → Done st d true) :
    ∃ G' B', Inv c external roots (leave c e.prod e.params false consumed st) G' B' ∧
      (leave c e.prod e.params false consumed st).pub = e.name :: st.pub ∧
      (leave c e.prod e.params false consumed st).priv = st.priv := by
  have hin := linked_in he
  have hleave : leave c e.prod e.params false consumed st = { st with
      objects := e.prod.files.foldl (addPublic c e.params) st.objects
      pub := e.prod.name :: st.pub } := by
    unfold leave
    rw [hk]
    rfl
  obtain ⟨G', h1, ha⟩ := fold_public c e.params B e.prod.files G hi.nodup (apart_B hf hi hin)
  obtain ⟨N, hN, hN'⟩ := ha.front
  have hmono : ∀ p ∈ paths G, p ∈ paths G' := fun p h => by rw [hN]; exact List.mem_append_right _ h
  have hfiles : ∀ p ∈ paths G', p ∈ paths G ∨ p ∈ e.prod.files := by
    intro p h
    rw [hN] at h
    rcases List.mem_append.mp h with h | h
    · exact .inr (hN' p h)
    · exact .inl h
  have same : ∀ d, In roots d → d.name = e.name → d.prod = e.prod ∧ d.deps = e.deps := fun d h1 h2 => hf.same d e h1 hin h2
  refine ⟨G', B, ?_, by rw [hleave]; rfl, by rw [hleave]⟩
  rw [hleave]
  refine ⟨?_, ha.nodup, ?_, hi.outside, hi.once, ?_, hi.privHidden, ?_, ?_, ?_, ?_, ?_, ?_, ?_⟩
  · show e.prod.files.foldl _ st.objects = _
    rw [hi.split, h1]
  · intro o ho
    rcases ha.only o ho with ⟨ho, hne⟩ | ⟨h1, h2⟩
    · rcases hi.stands o ho with ⟨d, hd, h1, h2, h3⟩ | ⟨d, hd, hdk, h1, h2, h3, h4⟩
      · exact .inl ⟨d, hd, h1, List.mem_cons_of_mem _ h2, h3⟩
      · refine .inr ⟨d, hd, hdk, h1, h2, ?_, h4⟩
        simp only [List.mem_cons, not_or]
        refine ⟨?_, h3⟩
        intro hn
        rw [(same d (hidden_in hd) hn).1] at h1
        exact hne h1
    · exact .inl ⟨e, he, h1, List.mem_cons_self, h2⟩
  · intro n hn
    rcases List.mem_cons.mp hn with rfl | hn
    · exact ⟨e, he, rfl⟩
    · exact hi.pubLinked n hn
  · intro d hd hn hko p hpd
    rcases List.mem_cons.mp hn with hn | hn
    · rw [(same d hd hn).1] at hpd
      exact ha.all p hpd
    · exact hmono p (hi.present d hd hn hko p hpd)
  · intro d hd hn hco p hpd
    rcases List.mem_cons.mp hn with hn | hn
    · rw [(same d hd hn).1] at hpd
      exact ha.all p hpd
    · exact hmono p (hi.objects d hd hn hco p hpd)
  · intro d hd hn p hpd
    exact hmono p (hi.presentPriv d hd hn p hpd)
  · intro x d hx hn hxk hs
    rcases List.mem_cons.mp hn with hn | hn
    · rw [(same x hx hn).1] at hxk
      exact absurd hk hxk
    · exact List.mem_cons_of_mem _ (hi.closed x d hx hn hxk hs)
  · intro x d hx hn hcd hdk
    have lift : d.name ∈ st.pub ∨ d.name ∈ st.priv → d.name ∈ e.prod.name :: st.pub ∨ d.name ∈ st.priv :=
      fun h => h.imp (List.mem_cons_of_mem _) id
    by_cases hxe : x.name = e.name
    · cases hcd with
      | refl d => exact .inl (by rw [hxe]; exact List.mem_cons_self)
      | step _ y _ hs hcd' => exact lift ((hch y (hs.congr hxe (same x hx hxe).2)).2 d hcd' hdk)
    · refine lift (hi.reach x d hx ?_ hcd hdk)
      rcases hn with hn | hn
      · rcases List.mem_cons.mp hn with hn | hn
        · exact absurd hn hxe
        · exact .inl hn
      · exact .inr hn
  · intro x d hx hn hxk hs p hpx q hqd hpG hqG
    have hdin : In roots d := .child x d hx hs.1
    rcases List.mem_cons.mp hn with hn | hn
    · rw [(same x hx hn).1] at hxk
      exact absurd hk hxk
    · have hdp := hi.closed x d hx hn hxk hs
      have hp' : p ∈ paths G := by
        rcases hfiles p hpG with h | h
        · exact h
        · exact absurd (hf.distinct x e p hx hin hpx h ▸ hn) hp
      have hq' : q ∈ paths G := by
        rcases hfiles q hqG with h | h
        · exact h
        · exact absurd (hf.distinct d e q hdin hin hqd h ▸ hdp) hp
      rw [hN]
      exact before_append N (hi.order x d hx hn hxk hs p hpx q hqd hp' hq')
  · intro d hd hn hdk hip p hpd
    rcases List.mem_cons.mp hn with hn | hn
    · rw [(same d hd hn).1] at hdk
      exact absurd hk hdk
    · exact hi.imported d hd hn hdk hip p hpd

/-- Leaving a dynamic library below another one. -/
theorem leave_hidden (hf : Fine external roots) {st : St} {G B : List Obj} (hi : Inv c external roots st G B) {e : Dep}
    (he : Hidden roots e) (hk : e.prod.kind = some .dynamic) (hp : e.name ∉ st.pub)
    (consumed : Bool) (hch : ∀ d, Step e d → Done st d true) :
    ∃ G' B', Inv c external roots (leave c e.prod e.params true consumed st) G' B' ∧
      (leave c e.prod e.params true consumed st).pub = st.pub ∧
      (leave c e.prod e.params true consumed st).priv = e.name :: st.priv := by
  have hin := hidden_in he
  have hleave : leave c e.prod e.params true consumed st = { st with
      objects := e.prod.files.foldl (addPrivate c) st.objects
      priv := e.prod.name :: st.priv } := by
    unfold leave
    rw [hk]
    rfl
  obtain ⟨G', h1, ha⟩ := fold_private c B e.prod.files G hi.nodup (apart_B hf hi hin)
  obtain ⟨N, hN, hN'⟩ := ha.front
  have hmono : ∀ p ∈ paths G, p ∈ paths G' := fun p h => by rw [hN]; exact List.mem_append_right _ h
  have hfiles : ∀ p ∈ paths G', p ∈ paths G ∨ p ∈ e.prod.files := by
    intro p h
    rw [hN] at h
    rcases List.mem_append.mp h with h | h
    · exact .inr (hN' p h)
    · exact .inl h
  have same : ∀ d, In roots d → d.name = e.name → d.prod = e.prod ∧ d.deps = e.deps := fun d h1 h2 => hf.same d e h1 hin h2
  refine ⟨G', B, ?_, by rw [hleave], by rw [hleave]; rfl⟩
  rw [hleave]
  refine ⟨?_, ha.nodup, ?_, hi.outside, hi.once, hi.pubLinked, ?_, ?_, ?_, ?_, hi.closed, ?_, ?_, hi.imported⟩
  · show e.prod.files.foldl _ st.objects = _
    rw [hi.split, h1]
  · intro o ho
    rcases ha.only o ho with ho | ⟨h1, h2, h3⟩
    · rcases hi.stands o ho with ⟨d, hd, h1, h2, h3⟩ | ⟨d, hd, hdk, h1, h2, h3, h4⟩
      · exact .inl ⟨d, hd, h1, h2, h3⟩
      · exact .inr ⟨d, hd, hdk, h1, List.mem_cons_of_mem _ h2, h3, h4⟩
    · exact .inr ⟨e, he, hk, h1, List.mem_cons_self, hp, h3⟩
  · intro n hn
    rcases List.mem_cons.mp hn with rfl | hn
    · exact ⟨e, he, hk, rfl⟩
    · exact hi.privHidden n hn
  · intro d hd hn hko p hpd
    exact hmono p (hi.present d hd hn hko p hpd)
  · intro d hd hn hco p hpd
    exact hmono p (hi.objects d hd hn hco p hpd)
  · intro d hd hn p hpd
    rcases List.mem_cons.mp hn with hn | hn
    · rw [(same d hd hn).1] at hpd
      exact ha.all p hpd
    · exact hmono p (hi.presentPriv d hd hn p hpd)
  · intro x d hx hn hcd hdk
    have lift : d.name ∈ st.pub ∨ d.name ∈ st.priv → d.name ∈ st.pub ∨ d.name ∈ e.prod.name :: st.priv :=
      fun h => h.imp id (List.mem_cons_of_mem _)
    by_cases hxe : x.name = e.name
    · cases hcd with
      | refl d => exact .inr (by rw [hxe]; exact List.mem_cons_self)
      | step _ y _ hs hcd' => exact lift ((hch y (hs.congr hxe (same x hx hxe).2)).2 d hcd' hdk)
    · refine lift (hi.reach x d hx ?_ hcd hdk)
      rcases hn with hn | hn
      · exact .inl hn
      · rcases List.mem_cons.mp hn with hn | hn
        · exact absurd hn hxe
        · exact .inr hn
  · intro x d hx hn hxk hs p hpx q hqd hpG hqG
    have hdin : In roots d := .child x d hx hs.1
    have hdp := hi.closed x d hx hn hxk hs
    have hp' : p ∈ paths G := by
      rcases hfiles p hpG with h | h
      · exact h
      · exact absurd (hf.distinct x e p hx hin hpx h ▸ hn) hp
    have hq' : q ∈ paths G := by
      rcases hfiles q hqG with h | h
      · exact h
      · exact absurd (hf.distinct d e q hdin hin hqd h ▸ hdp) hp
    rw [hN]
    exact before_append N (hi.order x d hx hn hxk hs p hpx q hqd hp' hq')

theorem not_inherited {n : Str} {l : List Str} (h : n ∉ inherited) : isIn n l = true ↔ n ∈ l := by
  unfold isIn
  simp [h]

/-- What a call of `traverse` leaves behind. -/
structure Post (c : Cfg) (external : List Str) (roots : List Dep) (st st' : St) (names : Str → Prop) : Prop where
  inv : ∃ G B, Inv c external roots st' G B
  grows : Grows st st'
  news : ∀ n ∈ st'.pub, n ∈ st.pub ∨ names n

theorem Inv.calls {st : St} {G B : List Obj} (hi : Inv c external roots st G B) (k : Nat) :
    Inv c external roots { st with calls := k } G B :=
  ⟨hi.split, hi.nodup, hi.stands, hi.outside, hi.once, hi.pubLinked, hi.privHidden, hi.present, hi.objects,
    hi.presentPriv, hi.closed, hi.reach, hi.order, hi.imported⟩

mutual
theorem traverse_ok (hf : Fine external roots) : ∀ (e : Dep) (below consumed : Bool) (st : St), Ctx roots e below consumed →
    (∃ G B, Inv c external roots st G B) →
    Post c external roots st (traverse c e below consumed st) (fun n => n = e.name ∨ ∃ x, Desc e x ∧ x.name = n) ∧
    (e.Links → Done (traverse c e below consumed st) e below)
  | .mk p q deps, below, consumed, st, hc, hi => by
    have hi' : ∃ G B, Inv c external roots { st with calls := st.calls + 1 } G B := by
      obtain ⟨G, B, h⟩ := hi
      exact ⟨G, B, h.calls _⟩
    rw [traverse]
    have hinh : p.name ∉ inherited := hf.names _ hc.isIn
    by_cases hs : skips p q below { st with calls := st.calls + 1 } = true
    · rw [if_pos hs]
      refine ⟨⟨hi', ⟨fun _ h => h, fun _ h => h⟩, fun n hn => .inl hn⟩, ?_⟩
      intro hl
      simp only [skips, Bool.or_eq_true, Bool.and_eq_true, not_inherited hinh, Bool.not_eq_true',
        Option.isNone_iff_eq_none] at hs
      obtain ⟨G, B, hinv⟩ := hi'
      rcases hs with ((hs | hs) | hs) | hs
      · exact ⟨fun _ => hs, fun x hx hk => hinv.reach _ x hc.isIn (.inl hs) hx hk⟩
      · have := hl.1
        rw [show (Dep.mk p q deps).params.link = q.link from rfl, hs] at this
        cases this
      · exact absurd hs hl.2
      · refine ⟨fun hb => ?_, fun x hx hk => hinv.reach _ x hc.isIn (.inr hs.2) hx hk⟩
        rw [hb] at hs
        cases hs.1
    · rw [if_neg hs]
      simp only [skips, Bool.or_eq_true, Bool.and_eq_true, not_inherited hinh, Bool.not_eq_true',
        Option.isNone_iff_eq_none, not_or, not_and, Bool.not_eq_false] at hs
      obtain ⟨⟨⟨hpub, hlink⟩, hkind⟩, hpriv⟩ := hs
      have hl : (Dep.mk p q deps).Links := ⟨hlink, hkind⟩
      have hctx : ∀ d ∈ deps, some p.name ≠ some d.name → Ctx roots d (below || decide (p.kind = some .dynamic))
          (consumed || decide (p.kind ≠ some .object)) := by
        intro d hd hne
        have hin : In roots d := .child (.mk p q deps) d hc.isIn hd
        have hstep : d.Links → Step (.mk p q deps) d := fun h => ⟨hd, fun h' => hne (by rw [h']; rfl), h⟩
        refine ⟨hin, ?_, ?_, ?_⟩
        · intro hb hdl
          simp only [Bool.or_eq_false_iff, decide_eq_false_iff_not] at hb
          exact .step _ d (hc.linked hb.1 hl) hb.2 (hstep hdl)
        · intro hb hco hdl
          simp only [Bool.or_eq_false_iff, decide_eq_false_iff_not] at hb
          simp only [Bool.or_eq_true, decide_eq_true_eq] at hco
          rcases hco with hco | hco
          · exact .step _ d (hc.consumed hb.1 hco hl) (hstep hdl)
          · refine .static _ d (hc.linked hb.1 hl) ?_ (hstep hdl)
            show p.kind = some .static
            cases hk : p.kind with
            | none => exact absurd hk hkind
            | some k =>
              cases k with
              | static => rfl
              | object => exact absurd hk hco
              | dynamic => exact absurd hk hb.2
        · intro hb hdl
          simp only [Bool.or_eq_true, decide_eq_true_eq] at hb
          cases hbl : below with
          | true => exact .step _ d (hc.hidden hbl hl) (hstep hdl)
          | false =>
            rw [hbl] at hb
            rcases hb with hb | hb
            · cases hb
            · exact .under _ d (hc.linked hbl hl) hb (hstep hdl)
      obtain ⟨hpost, hdone⟩ := traverseAll_ok hf (some p.name) deps (below || decide (p.kind = some .dynamic))
        (consumed || decide (p.kind ≠ some .object)) { st with calls := st.calls + 1 } hctx hi'
      generalize traverseAll c (some p.name) deps (below || decide (p.kind = some .dynamic))
        (consumed || decide (p.kind ≠ some .object)) { st with calls := st.calls + 1 } = s₁ at hpost hdone ⊢
      have hch : ∀ d, Step (.mk p q deps) d → Done s₁ d (below || decide (p.kind = some .dynamic)) :=
        fun d hd => hdone d hd.1 (fun h => hd.2.1 (Option.some.inj h).symm) hd.2.2
      have hnew : p.name ∉ s₁.pub := by
        intro hm
        rcases hpost.news _ hm with h | ⟨d, hd, h | ⟨x, hx, h⟩⟩
        · exact hpub h
        · exact desc_name hf hc.isIn (.one (.mk p q deps) d hd) h.symm
        · exact desc_name hf hc.isIn (desc_head (e := .mk p q deps) hd hx) h
      have hdesc : ∀ n, (∃ d ∈ deps, n = d.name ∨ ∃ x, Desc d x ∧ x.name = n) → ∃ x, Desc (.mk p q deps) x ∧ x.name = n := by
        rintro n ⟨d, hd, h | ⟨x, hx, h⟩⟩
        · exact ⟨d, .one _ d hd, h.symm⟩
        · exact ⟨x, desc_head (e := .mk p q deps) hd hx, h⟩
      obtain ⟨G, B, hinv⟩ := hpost.inv
      cases hbl : below with
      | false =>
        have hlk : Linked roots (.mk p q deps) := hc.linked hbl hl
        have key : ∃ G' B', Inv c external roots (leave c p q false consumed s₁) G' B' ∧
            (leave c p q false consumed s₁).pub = p.name :: s₁.pub ∧ (leave c p q false consumed s₁).priv = s₁.priv := by
          cases hk : p.kind with
          | none => exact absurd hk hkind
          | some k =>
            by_cases hkd : k = .dynamic
            · subst hkd
              refine leave_dynamic (e := .mk p q deps) hf hinv hlk hk hnew consumed ?_
              intro d hd
              have := hch d hd
              rw [hk] at this
              simpa using this
            · refine leave_static (e := .mk p q deps) hf hinv hlk hk hkd hnew consumed
                (fun h => hc.consumed hbl h hl) ?_
              intro d hd
              have := hch d hd
              rw [hbl, hk, decide_eq_false (fun h => hkd (Option.some.inj h))] at this
              exact this
        obtain ⟨G', B', hinv', hp1, hp2⟩ := key
        refine ⟨⟨⟨G', B', hinv'⟩, ?_, ?_⟩, ?_⟩
        · refine ⟨fun n hn => ?_, fun n hn => ?_⟩
          · rw [hp1]
            exact List.mem_cons_of_mem _ (hpost.grows.1 n hn)
          · rw [hp2]
            exact hpost.grows.2 n hn
        · intro n hn
          rw [hp1] at hn
          rcases List.mem_cons.mp hn with hn | hn
          · exact .inr (.inl hn)
          · rcases hpost.news n hn with h | h
            · exact .inl h
            · exact .inr (.inr (hdesc n h))
        · intro _
          have hm : p.name ∈ (leave c p q false consumed s₁).pub := by rw [hp1]; exact List.mem_cons_self
          exact ⟨fun _ => hm, fun x hx hk => hinv'.reach _ x hc.isIn (.inl hm) hx hk⟩
      | true =>
        have hlk : Hidden roots (.mk p q deps) := hc.hidden hbl hl
        by_cases hk : p.kind = some .dynamic
        · obtain ⟨G', B', hinv', hp1, hp2⟩ := leave_hidden (e := .mk p q deps) hf hinv hlk hk hnew consumed (by
            intro d hd
            have := hch d hd
            rw [hbl] at this
            exact this)
          simp only [show (Dep.mk p q deps).prod = p from rfl, show (Dep.mk p q deps).params = q from rfl] at hinv' hp1 hp2
          refine ⟨⟨⟨G', B', hinv'⟩, ?_, ?_⟩, ?_⟩
          · refine ⟨fun n hn => ?_, fun n hn => ?_⟩
            · rw [hp1]
              exact hpost.grows.1 n hn
            · rw [hp2]
              exact List.mem_cons_of_mem _ (hpost.grows.2 n hn)
          · intro n hn
            rw [hp1] at hn
            rcases hpost.news n hn with h | h
            · exact .inl h
            · exact .inr (.inr (hdesc n h))
          · intro _
            have hm : p.name ∈ (leave c p q true consumed s₁).priv := by rw [hp2]; exact List.mem_cons_self
            exact ⟨(fun h => by cases h), fun x hx hk => hinv'.reach _ x hc.isIn (.inr hm) hx hk⟩
        · have hleave : leave c p q true consumed s₁ = s₁ := by
            unfold leave
            cases hk' : p.kind with
            | none => rfl
            | some k =>
              cases k with
              | static => rfl
              | object => rfl
              | dynamic => exact absurd hk' hk
          rw [hleave]
          refine ⟨⟨⟨G, B, hinv⟩, ⟨fun n hn => hpost.grows.1 n hn, fun n hn => hpost.grows.2 n hn⟩, ?_⟩, ?_⟩
          · intro n hn
            rcases hpost.news n hn with h | h
            · exact .inl h
            · exact .inr (.inr (hdesc n h))
          · intro _
            refine ⟨(fun h => by cases h), ?_⟩
            intro x hx hxk
            cases hx with
            | refl => exact absurd hxk hk
            | step _ y _ hs hcd => exact (hch y hs).2 x hcd hxk
theorem traverseAll_ok (hf : Fine external roots) : ∀ (parent : Option Str) (l : List Dep) (below consumed : Bool) (st : St),
    (∀ d ∈ l, parent ≠ some d.name → Ctx roots d below consumed) → (∃ G B, Inv c external roots st G B) →
    Post c external roots st (traverseAll c parent l below consumed st)
      (fun n => ∃ d ∈ l, n = d.name ∨ ∃ x, Desc d x ∧ x.name = n) ∧
    (∀ d ∈ l, parent ≠ some d.name → d.Links → Done (traverseAll c parent l below consumed st) d below)
  | parent, [], below, consumed, st, hc, hi => by
    rw [traverseAll]
    exact ⟨⟨hi, .refl st, fun n hn => .inl hn⟩, fun d hd => by cases hd⟩
  | parent, d :: l, below, consumed, st, hc, hi => by
    rw [traverseAll]
    have h1 : Post c external roots st (if parent = some d.name then st else traverse c d below consumed st)
        (fun n => n = d.name ∨ ∃ x, Desc d x ∧ x.name = n) ∧
        (parent ≠ some d.name → d.Links →
          Done (if parent = some d.name then st else traverse c d below consumed st) d below) := by
      by_cases hp : parent = some d.name
      · rw [if_pos hp]
        exact ⟨⟨hi, .refl st, fun n hn => .inl hn⟩, fun h => absurd hp h⟩
      · rw [if_neg hp]
        obtain ⟨a, b⟩ := traverse_ok hf d below consumed st (hc d (by simp) hp) hi
        exact ⟨a, fun _ => b⟩
    generalize (if parent = some d.name then st else traverse c d below consumed st) = s₁ at h1 ⊢
    obtain ⟨h1, h2⟩ := h1
    obtain ⟨h3, h4⟩ := traverseAll_ok hf parent l below consumed s₁ (fun x hx => hc x (by simp [hx])) h1.inv
    refine ⟨⟨h3.inv, h1.grows.trans h3.grows, ?_⟩, ?_⟩
    · intro n hn
      rcases h3.news n hn with h | ⟨x, hx, h⟩
      · rcases h1.news n h with h | h
        · exact .inl h
        · exact .inr ⟨d, by simp, h⟩
      · exact .inr ⟨x, by simp [hx], h⟩
    · intro x hx hp hl
      rcases List.mem_cons.mp hx with rfl | hx
      · exact (h2 hp hl).mono h3.grows
      · exact h4 x hx hp hl
end

end

end Verif.Link
