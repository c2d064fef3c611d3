import Verif.Read.Lem

namespace Verif.Read

theorem readObj_cases {w : World} {rf : File → Except Err Item} {f : File} {t : Path} {ms : Members} {i : Item}
    (h : readObj w rf f (.mk t ms) = .ok i) :
    ∃ own b, baseOf w rf f t = .ok b ∧ readMembers w rf f {} ms = .ok own ∧ finish w own b = .ok i := by
  rw [readObj] at h
  cases hb : baseOf w rf f t with
  | error e => rw [hb] at h; cases h
  | ok b =>
    rw [hb] at h
    simp only at h
    cases ho : readMembers w rf f {} ms with
    | error e => rw [ho] at h; cases h
    | ok own =>
      rw [ho] at h
      exact ⟨own, b, rfl, rfl, h⟩

theorem baseOf_file {w : World} {rf : File → Except Err Item} {f g : File} {t : Path} {b : Item ⊕ Name}
    (h : baseOf w rf f t = .ok b) (ht : w.typeFile f t = some g) : ∃ i, rf g = .ok i ∧ b = .inl i := by
  unfold baseOf at h
  rw [ht] at h
  simp only at h
  cases hr : rf g with
  | error e => rw [hr] at h; cases h
  | ok i => rw [hr] at h; cases h; exact ⟨i, rfl, rfl⟩

theorem baseOf_builtin {w : World} {rf : File → Except Err Item} {f : File} {n k : Name} {b : Item ⊕ Name}
    (h : baseOf w rf f [n] = .ok b) (ht : w.typeFile f [n] = none) (hk : w.builtin n = some k) : b = .inr k := by
  unfold baseOf at h
  rw [ht] at h
  simp only [hk] at h
  cases h
  rfl

theorem inherit_ok {own : Own} {base i : Item} (h : inherit own base = .ok i) :
    ∃ d p, inheritDecls own base.decls = .ok d ∧ inheritProps own.props base.props = .ok p ∧
      i = .mk base.kind d p (base.children ++ own.children) := by
  unfold inherit at h
  cases hd : inheritDecls own base.decls with
  | error e => rw [hd] at h; cases h
  | ok d =>
    rw [hd] at h
    simp only at h
    cases hp : inheritProps own.props base.props with
    | error e => rw [hp] at h; cases h
    | ok p =>
      rw [hp] at h
      cases h
      exact ⟨d, p, rfl, rfl, rfl⟩

theorem readFile_ok {w : World} {n : Nat} {stack : List File} {f : File} {i : Item}
    (h : readFile w n stack f = .ok i) :
    ∃ m o, n = m + 1 ∧ w.content f = some o ∧ f ∉ stack ∧ readObj w (readFile w m (f :: stack)) f o = .ok i ∧
      typesOk w i = true := by
  cases n with
  | zero => simp [readFile] at h
  | succ m =>
    rw [readFile] at h
    cases hc : w.content f with
    | none => rw [hc] at h; cases h
    | some o =>
      rw [hc] at h
      simp only at h
      by_cases hs : f ∈ stack
      · rw [if_pos hs] at h; cases h
      · rw [if_neg hs] at h
        cases hr : readObj w (readFile w m (f :: stack)) f o with
        | error e => rw [hr] at h; cases h
        | ok j =>
          rw [hr] at h
          simp only at h
          by_cases ht : typesOk w j = true
          · rw [if_pos ht] at h
            cases h
            exact ⟨m, o, rfl, rfl, hs, hr, ht⟩
          · rw [if_neg ht] at h; cases h

theorem readMembers_paths (w : World) (rf : File → Except Err Item) (f : File) : ∀ (ms : Members) (own own' : Own),
    readMembers w rf f own ms = .ok own' → ∀ x ∈ paths own'.props,
      x ∈ paths own.props ∨ ∃ e ∈ ms.settings, e.1 = x
  | .nil, own, own', h, x, hx => by
    rw [readMembers] at h
    cases h
    exact Or.inl hx
  | .decl n d rhs ms, own, own', h, x, hx => by
    rw [readMembers] at h
    cases hd : addDecl own n d rhs with
    | error e => rw [hd] at h; cases h
    | ok own1 =>
      rw [hd] at h
      simp only at h
      have hset : ∃ s, (Members.decl n d rhs ms).settings = ([n], s) :: ms.settings := by
        cases rhs with
        | none => exact ⟨_, rfl⟩
        | some c => exact ⟨_, rfl⟩
      obtain ⟨s, hs⟩ := hset
      rw [hs]
      rcases readMembers_paths w rf f ms own1 own' h x hx with h1 | ⟨e, he, he'⟩
      · unfold addDecl at hd
        cases rhs with
        | some c =>
          simp only at hd
          by_cases hh : hasOwn own.props [n] = true
          · rw [if_pos hh] at hd; cases hd
          · rw [if_neg hh] at hd
            cases hd
            simp only [paths, List.map_append, List.map_cons, List.map_nil, List.mem_append,
              List.mem_singleton] at h1
            rcases h1 with h1 | h1
            · exact Or.inl h1
            · exact Or.inr ⟨_, List.mem_cons_self, h1.symm⟩
        | none =>
          simp only at hd
          cases hd
          simp only [paths, List.map_append, List.map_cons, List.map_nil, List.mem_append,
            List.mem_singleton] at h1
          rcases h1 with h1 | h1
          · exact Or.inl ((List.filter_sublist.map _).subset h1)
          · exact Or.inr ⟨_, List.mem_cons_self, h1.symm⟩
      · exact Or.inr ⟨e, List.mem_cons_of_mem _ he, he'⟩
  | .bind q c ms, own, own', h, x, hx => by
    rw [readMembers] at h
    cases hd : addBinding own q c with
    | error e => rw [hd] at h; cases h
    | ok own1 =>
      rw [hd] at h
      simp only at h
      rw [Members.settings]
      rcases readMembers_paths w rf f ms own1 own' h x hx with h1 | ⟨e, he, he'⟩
      · unfold addBinding at hd
        by_cases h2 : valueAbove own.props q = true
        · rw [if_pos h2] at hd; cases hd
        · rw [if_neg h2] at hd
          by_cases hh : hasOwn own.props q = true
          · rw [if_pos hh] at hd; cases hd
          · rw [if_neg hh] at hd
            cases hd
            simp only [paths, List.map_append, List.map_cons, List.map_nil, List.mem_append,
              List.mem_singleton] at h1
            rcases h1 with h1 | h1
            · exact Or.inl h1
            · exact Or.inr ⟨_, List.mem_cons_self, h1.symm⟩
      · exact Or.inr ⟨e, List.mem_cons_of_mem _ he, he'⟩
  | .child o ms, own, own', h, x, hx => by
    rw [readMembers] at h
    cases hd : readObj w rf f o with
    | error e => rw [hd] at h; cases h
    | ok i =>
      rw [hd] at h
      simp only at h
      rw [Members.settings]
      exact readMembers_paths w rf f ms _ own' h x hx

theorem matched_append {α β : Type} {R : α → β → Prop} {as : List α} {bs : List β} {cs : List α} {ds : List β}
    (h1 : Matched R as bs) (h2 : Matched R cs ds) : Matched R (as ++ cs) (bs ++ ds) := by
  induction h1 with
  | nil => exact h2
  | cons a b as bs h t ih => exact .cons a b _ _ h ih

theorem matched_objs {w : World} {n : Nat} {stack : List File} (f : File) : ∀ (os : List Obj) (cs : List Item),
    os.map (readObj w (readFile w n stack) f) = cs.map .ok →
    Matched (fun (x : File × Obj) c => ReadsObj w x.1 x.2 c) (os.map (fun o => (f, o))) cs
  | [], [], _ => .nil
  | [], _ :: _, h => by simp at h
  | _ :: _, [], h => by simp at h
  | o :: os, c :: cs, h => by
    simp only [List.map_cons, List.cons.injEq] at h
    exact .cons _ _ _ _ ⟨n, stack, h.1⟩ (matched_objs f os cs h.2)

/-- All about an item with the chain `l`. -/
structure Facts (w : World) (l : List (File × Obj)) (k : Name) (i : Item) : Prop where
  kind : i.kind = k
  nodup : (paths i.props).Nodup
  from_ : ∀ x ∈ paths i.props, (∃ y ∈ l, ∃ e ∈ y.2.members.settings, e.1 = x) ∨ ∃ e ∈ w.builtins k, x = [e.1]
  decl : ∀ n, declOf i.decls n =
    (declOf (w.builtins k) n).or (l.reverse.findSome? fun x => x.2.declares n)
  values : ∀ p, NothingAbove w l k p → get i.props p = l.filterMap (fun x => x.2.setting p) ++ defaults w l k p
  children : Matched (fun (x : File × Obj) c => ReadsObj w x.1 x.2 c)
    (l.reverse.flatMap fun x => x.2.members.objs.map fun o => (x.1, o)) i.children
  readOnly : ∀ l1 y l2, l = l1 ++ y :: l2 → l2 ≠ [] → ∀ n d,
    (declOf (w.builtins k) n).or (l2.reverse.findSome? fun x => x.2.declares n) = some d →
    d.readOnly = true → ¬ y.2.sets n

theorem chain_ne {w : World} {f : File} {o : Obj} {l : List (File × Obj)} {k : Name} (h : Chain w f o l k) :
    l ≠ [] := by
  cases h with
  | builtin => simp
  | derived => simp

theorem toList_filterMap {α β : Type} (g : α → Option β) (a : α) (l : List α) :
    (a :: l).filterMap g = (g a).toList ++ l.filterMap g := by
  rw [List.filterMap_cons]
  cases g a with
  | none => rfl
  | some b => rfl

theorem declOf_mem {l : List (Name × Decl)} {n : Name} {d : Decl} (h : declOf l n = some d) : (n, d) ∈ l := by
  unfold declOf at h
  rw [Option.map_eq_some_iff] at h
  obtain ⟨e, he, rfl⟩ := h
  have h1 := List.mem_of_find?_eq_some he
  have h2 := List.find?_some he
  simp at h2
  subst h2
  exact h1

theorem facts {w : World} {f : File} {o : Obj} {l : List (File × Obj)} {k : Name} (hc : Chain w f o l k) :
    ∀ n stack i, readObj w (readFile w n stack) f o = .ok i → Facts w l k i := by
  induction hc with
  | builtin f nm k ms h hk =>
    intro n stack i hr
    obtain ⟨own, b, hb, hm, hf⟩ := readObj_cases hr
    have hbk := baseOf_builtin hb h hk
    subst hbk
    rw [finish] at hf
    cases hf
    obtain ⟨a1, a2, ⟨cs, a3, a3'⟩, a4, a5⟩ := readMembers_ok w _ f ms {} own hm (by simp [paths])
    have a6 := readMembers_paths w _ f ms {} own hm
    obtain ⟨b1, b2, b3, b4, b5, b6⟩ := setupBuiltin_ok k own (w.builtins k) a1
    refine ⟨rfl, b1, ?_, ?_, ?_, ?_, ?_⟩
    · intro x hx
      rcases b4 x hx with e | e
      · rcases a6 x e with e | ⟨e, he, he'⟩
        · simp [paths] at e
        · exact Or.inl ⟨_, List.mem_singleton_self _, e, he, he'⟩
      · exact Or.inr e
    · intro n
      show declOf (setupBuiltin k own (w.builtins k)).decls n = _
      rw [b2, a2]
      simp [declOf, Obj.declares, Obj.members]
    · intro p hp
      show get (setupBuiltin k own (w.builtins k)).props p = _
      have hs : get own.props p = (Obj.setting (.mk [nm] ms) p).toList := by
        rw [← lastAt_setting, a4 p (fun e he => hp.1 _ (List.mem_singleton_self _) e he)]
        simp [get, Obj.members]
      rw [b6, hs, toList_filterMap, List.filterMap_nil, List.append_nil]
      congr 1
      match p with
      | [] => rfl
      | _ :: _ :: _ => rfl
      | [n] =>
        unfold defaults
        have h5 : hasOwn own.props [n] = true ↔ ∃ e ∈ ms.settings, e.1.head? = some n := by
          rw [a5]; simp [hasOwn]
        have h6 : ([(f, Obj.mk [nm] ms)].getLast?.any fun x => x.2.members.settings.any fun e =>
            decide (e.1.head? = some n)) = true ↔ ∃ e ∈ ms.settings, e.1.head? = some n := by
          simp [Obj.members]
        simp only [h5, h6]
    · show Matched _ _ (setupBuiltin k own (w.builtins k)).children
      rw [b3, a3]
      simp only [List.reverse_cons, List.reverse_nil, List.nil_append, List.flatMap_cons, List.flatMap_nil,
        List.append_nil]
      exact matched_objs f _ _ a3'
    · intro l1 y l2 hl h2
      exfalso
      cases l1 with
      | nil => simp at hl; exact h2 hl.2
      | cons a l1 => simp at hl
  | derived f g type ms o l k h hg hc ih =>
    intro n stack i hr
    obtain ⟨own, b, hb, hm, hf⟩ := readObj_cases hr
    obtain ⟨base, hbase, hbe⟩ := baseOf_file hb h
    subst hbe
    rw [finish] at hf
    obtain ⟨m, o', rfl, ho', hs, hro, _⟩ := readFile_ok hbase
    rw [hg] at ho'
    cases ho'
    obtain ⟨F1, F2, F3, F4, F5, F6, F7⟩ := ih _ _ _ hro
    obtain ⟨ds, ps, hds, hps, rfl⟩ := inherit_ok hf
    obtain ⟨a1, a2, ⟨cs, a3, a3'⟩, a4, a5⟩ := readMembers_ok w _ f ms {} own hm (by simp [paths])
    have a6 := readMembers_paths w _ f ms {} own hm
    obtain ⟨b1, b2⟩ := inheritDecls_ok own base.decls ds hds
    obtain ⟨c1, c2, c3⟩ := inheritProps_ok base.props own.props ps hps a1 F2
    refine ⟨F1, c1, ?_, ?_, ?_, ?_, ?_⟩
    · intro x hx
      rcases c2 x hx with e | e
      · rcases a6 x e with e | ⟨e, he, he'⟩
        · simp [paths] at e
        · exact Or.inl ⟨_, List.mem_cons_self, e, he, he'⟩
      · rcases F3 x e with ⟨y, hy, hy'⟩ | e
        · exact Or.inl ⟨y, List.mem_cons_of_mem _ hy, hy'⟩
        · exact Or.inr e
    · intro nm
      show declOf ds nm = _
      rw [b1, F4, a2, List.reverse_cons, List.findSome?_append]
      simp [declOf, Obj.declares, Obj.members, Option.or_assoc]
    · intro p hp
      show get ps p = _
      have hp' : NothingAbove w l k p := ⟨fun x hx => hp.1 x (List.mem_cons_of_mem _ hx), hp.2⟩
      have hown : ∀ x ∈ paths own.props, ¬ Above x p := by
        intro x hx
        rcases a6 x hx with e | ⟨e, he, he'⟩
        · simp [paths] at e
        · subst he'
          exact hp.1 _ List.mem_cons_self e he
      have hbp : ∀ x ∈ paths base.props, ¬ Above x p := by
        intro x hx
        rcases F3 x hx with ⟨y, hy, e, he, rfl⟩ | ⟨e, he, rfl⟩
        · exact hp'.1 y hy e he
        · exact hp'.2 e he
      have hs : get own.props p = (Obj.setting (.mk type ms) p).toList := by
        rw [← lastAt_setting, a4 p (fun e he => hp.1 _ List.mem_cons_self e he)]
        simp [get, Obj.members]
      rw [c3 p hown hbp, hs, F5 p hp', toList_filterMap, List.append_assoc]
      congr 2
      unfold defaults
      match p with
      | [] => rfl
      | _ :: _ :: _ => rfl
      | [n] =>
        have : ((f, Obj.mk type ms) :: l).getLast? = l.getLast? := by
          cases l with
          | nil => exact absurd rfl (chain_ne hc)
          | cons x xs => rw [List.getLast?_cons_cons]
        simp only [this]
    · show Matched _ _ (base.children ++ own.children)
      rw [List.reverse_cons, List.flatMap_append, a3]
      refine matched_append F6 ?_
      simp only [List.flatMap_cons, List.flatMap_nil, List.append_nil]
      exact matched_objs f _ _ a3'
    · intro l1 y l2 hl h2 nm d hd hro hset
      cases l1 with
      | cons a l1 =>
        simp only [List.cons_append, List.cons.injEq] at hl
        exact F7 l1 y l2 hl.2 h2 nm d hd hro hset
      | nil =>
        simp only [List.nil_append, List.cons.injEq] at hl
        obtain ⟨rfl, rfl⟩ := hl
        rw [← F4] at hd
        have := b2 (nm, d) (declOf_mem hd) hro
        apply this
        rw [a5]
        exact Or.inl hset

/-- What is read has a chain. -/
theorem chain_of_readFile (w : World) : ∀ n stack f i, readFile w n stack f = .ok i →
    ∃ o l k, w.content f = some o ∧ Chain w f o l k
  | 0, _, _, _, h => by simp [readFile] at h
  | n + 1, stack, f, i, h => by
    obtain ⟨m, o, hm, ho, hs, hr, _⟩ := readFile_ok h
    cases hm
    obtain ⟨type, ms⟩ := o
    obtain ⟨own, b, hb, _, _⟩ := readObj_cases hr
    cases ht : w.typeFile f type with
    | some g =>
      obtain ⟨base, hbase, _⟩ := baseOf_file hb ht
      obtain ⟨o', l, k, ho', hc⟩ := chain_of_readFile w n _ g base hbase
      exact ⟨_, _, k, ho, .derived f g type ms o' l k ht ho' hc⟩
    | none =>
      unfold baseOf at hb
      rw [ht] at hb
      simp only at hb
      match type with
      | [] => simp at hb
      | _ :: _ :: _ => simp at hb
      | [nm] =>
        simp only at hb
        cases hk : w.builtin nm with
        | none => rw [hk] at hb; cases hb
        | some k => exact ⟨_, _, k, ho, .builtin f nm k ms ht hk⟩

theorem chain_of_readObj (w : World) (n : Nat) (stack : List File) (f : File) (o : Obj) (i : Item)
    (h : readObj w (readFile w n stack) f o = .ok i) : ∃ l k, Chain w f o l k := by
  obtain ⟨type, ms⟩ := o
  obtain ⟨own, b, hb, _, _⟩ := readObj_cases h
  cases ht : w.typeFile f type with
  | some g =>
    obtain ⟨base, hbase, _⟩ := baseOf_file hb ht
    obtain ⟨o', l, k, ho', hc⟩ := chain_of_readFile w n _ g base hbase
    exact ⟨_, k, .derived f g type ms o' l k ht ho' hc⟩
  | none =>
    unfold baseOf at hb
    rw [ht] at hb
    simp only at hb
    match type with
    | [] => simp at hb
    | _ :: _ :: _ => simp at hb
    | [nm] =>
      simp only at hb
      cases hk : w.builtin nm with
      | none => rw [hk] at hb; cases hb
      | some k => exact ⟨_, k, .builtin f nm k ms ht hk⟩

end Verif.Read
