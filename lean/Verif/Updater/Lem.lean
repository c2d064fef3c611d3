import Verif.Updater.Spec
import Verif.Literal.Props

namespace Verif.Updater

theorem edit_replace (s a b c t : Str) (hs : s = a ++ b ++ c) :
    (Edit.changes [.replace (a.length : Nat) (b.length : Nat) t]).apply s = a ++ t ++ c := by
  simp only [Edit.changes, List.foldl, Edit.ChangeSet.add, Edit.ChangeSet.apply, List.nil_append,
    List.flatMap_cons, List.flatMap_nil, Edit.convert, List.append_nil, Edit.execute, List.map_nil,
    Edit.qreplace]
  subst hs
  rw [if_neg (by simp only [List.length_append]; omega)]
  have h1 : ((a.length : Int)).toNat = a.length := by omega
  have h2 : ((a.length : Int) + (b.length : Int)).toNat = (a ++ b).length := by
    simp only [List.length_append]; omega
  rw [h1, h2, List.drop_left, show a ++ b ++ c = a ++ (b ++ c) by simp, List.take_left]

/-- Insertions at one place. -/
def inserts (p : Nat) (ts : List Str) : List Edit.Op := ts.map (fun t => .insert (p : Nat) t)

theorem foldl_ops (ops acc : List Edit.Op) (e : Bool) :
    (ops.foldl Edit.ChangeSet.add ⟨acc, e⟩).ops = acc ++ ops := by
  induction ops generalizing acc e with
  | nil => simp
  | cons o ops ih => simp [Edit.ChangeSet.add, ih]

theorem execute_inserts (a c : Str) (ts : List Str) :
    Edit.execute (a ++ c) (ts.map (fun t => ⟨(a.length : Nat), 0, t⟩)) = a ++ ts.flatten ++ c := by
  induction ts generalizing a with
  | nil => simp [Edit.execute]
  | cons t ts ih =>
    simp only [List.map_cons, Edit.execute, List.map_map]
    have h1 : Edit.qreplace (a ++ c) ⟨(a.length : Nat), 0, t⟩ = (a ++ t) ++ c := by
      unfold Edit.qreplace
      rw [if_neg (by simp only [List.length_append]; omega)]
      have e1 : ((a.length : Int)).toNat = a.length := by omega
      have e2 : ((a.length : Int) + 0).toNat = a.length := by omega
      simp only [e1, e2, List.take_left, List.drop_left]
    have h2 : ts.map ((Edit.shift ⟨(a.length : Nat), 0, t⟩) ∘ fun t' => ⟨(a.length : Nat), 0, t'⟩) =
        ts.map (fun t' => ⟨((a ++ t).length : Nat), 0, t'⟩) := by
      apply List.map_congr_left
      intro t' _
      simp [Edit.shift]
    rw [h1, h2, ih]
    simp

theorem edit_inserts (s a c : Str) (ts : List Str) (hs : s = a ++ c) :
    (Edit.changes (inserts a.length ts)).apply s = a ++ ts.flatten ++ c := by
  unfold Edit.ChangeSet.apply Edit.changes
  rw [foldl_ops, List.nil_append]
  have : (inserts a.length ts).flatMap (Edit.convert s) =
      ts.map (fun t => ⟨(a.length : Nat), 0, t⟩) := by
    unfold inserts
    induction ts with
    | nil => rfl
    | cons t ts ih =>
      simp only [List.map_cons, List.flatMap_cons, ih]
      rfl
  rw [this, hs, execute_inserts]

theorem edit_insert (s a c t : Str) (hs : s = a ++ c) :
    (Edit.changes [.insert (a.length : Nat) t]).apply s = a ++ t ++ c := by
  have := edit_inserts s a c [t] hs
  simpa [inserts] using this

theorem membersText_append (a b : List (Member × Str)) :
    membersText (a ++ b) = membersText a ++ membersText b := by
  induction a with
  | nil => rfl
  | cons p a ih => obtain ⟨m, g⟩ := p; simp [membersText, ih]

theorem indent_space (n : Nat) : ∀ c ∈ indent n, Literal.isSpace c = true := by
  intro c hc
  have := List.eq_of_mem_replicate hc
  subst this
  rfl

theorem items_reprs (n k : Nat) (es : List Str) (w : Str) (hw : ∀ c ∈ w, Literal.isSpace c = true) :
    Items es (w ++ ((es.map (addRepr n)).flatten ++ indent k)) := by
  induction es generalizing w with
  | nil =>
    refine .nil _ ?_
    intro c hc
    simp only [List.map_nil, List.flatten_nil, List.nil_append, List.mem_append] at hc
    rcases hc with h | h
    · exact hw c h
    · exact indent_space k c h
  | cons e es ih =>
    have h := Items.cons (w ++ indent n) e [] es _ (by
      intro c hc
      rcases List.mem_append.1 hc with h | h
      · exact hw c h
      · exact indent_space n c h) (by simp) (ih ['\n'] (by simp [Literal.isSpace, Literal.isLineEnd]))
    simpa [addRepr, List.append_assoc] using h

theorem filesRepr_lit (n k : Nat) (es : List Str) : ArrayLit es (filesRepr n k es) :=
  ⟨['\n'] ++ ((es.map (addRepr n)).flatten ++ indent k), by simp [filesRepr],
    items_reprs n k es ['\n'] (by simp [Literal.isSpace, Literal.isLineEnd])⟩

theorem litStr_lits (l : List Str) (h : ∀ f ∈ l, Literal.OneLine f) :
    StringLits (l.map Literal.litStr) l := by
  unfold StringLits
  rw [List.map_map]
  exact List.map_congr_left (fun f hf => (Literal.C38_string_iff f).2 (h f hf))

theorem mergeReprs_split (first : Str) (new old : List Str) :
    ∃ pre post, old = pre ++ post ∧ mergeReprs first new old = pre ++ new ++ post := by
  induction old with
  | nil => exact ⟨[], [], rfl, by simp [mergeReprs]⟩
  | cons o os ih =>
    by_cases h : first < o
    · exact ⟨[], o :: os, rfl, by simp [mergeReprs, h]⟩
    · obtain ⟨p, q, h1, h2⟩ := ih
      exact ⟨o :: p, q, by simp [h1], by simp [mergeReprs, h, h2]⟩

theorem findFiles_none {ms : List (Member × Str)} (h : ∀ p ∈ ms, ¬ NamedFiles p.1) :
    findFiles ms = none := by
  induction ms with
  | nil => rfl
  | cons p ms ih =>
    obtain ⟨m, g⟩ := p
    have hm := h (m, g) (by simp)
    simp only [findFiles, ih (fun q hq => h q (by simp [hq]))]
    cases hk : m.kind with
    | binding name s =>
      simp only []
      rw [if_neg]
      intro hn
      exact hm ⟨name, s, hk, hn⟩
    | object => rfl
    | other => rfl

theorem findFiles_eq {d : Doc} {a b head s g} (h : FilesBinding d a head s g b) :
    findFiles d.members = some s := by
  rw [h.eq]
  have : ∀ a : List (Member × Str), findFiles (a ++ (⟨.binding [filesName] s, head⟩, g) :: b) = some s := by
    intro a
    induction a with
    | nil => simp [findFiles, findFiles_none h.after]
    | cons p a ih => obtain ⟨m, g⟩ := p; simp [findFiles, ih]
  exact this a

theorem changeBinding_eq {d : Doc} {a b head s g} (h : FilesBinding d a head s g b) (new : Str) :
    edit (changeBinding new (d.pre.length + 1 + d.gap.length) d.members) d =
      textWith d a (head ++ new ++ (if b ≠ [] ∧ '\n' ∉ g then [';'] else [])) g b := by
  have loop : ∀ (a : List (Member × Str)) (off : Nat), (∀ p ∈ a, ¬ NamedFiles p.1) →
      changeBinding new off (a ++ (⟨.binding [filesName] s, head⟩, g) :: b) =
      [.replace (off + (membersText a).length + head.length : Nat) (s.source.length : Nat)
        (new ++ if b ≠ [] ∧ '\n' ∉ g then [';'] else [])] := by
    intro a
    induction a with
    | nil =>
      intro off _
      simp [changeBinding, isFiles, membersText, Member.body]
    | cons p a ih =>
      intro off hp
      obtain ⟨m, g'⟩ := p
      have hm : isFiles m = false := by
        unfold isFiles
        have := hp (m, g') (by simp)
        cases hk : m.kind with
        | binding name s' =>
          simp only [beq_eq_false_iff_ne, ne_eq]
          intro hn
          exact this ⟨name, s', hk, by simp [hn]⟩
        | object => rfl
        | other => rfl
      rw [List.cons_append]
      show (if isFiles m = true then _ else _) = _
      rw [hm, if_neg (by simp), ih _ (fun q hq => hp q (by simp [hq]))]
      simp only [membersText, List.length_append]
      congr 2
      omega
  unfold edit
  rw [h.eq, loop a _ h.before]
  have e : d.pre.length + 1 + d.gap.length + (membersText a).length + head.length =
      (d.pre ++ '{' :: d.gap ++ membersText a ++ head).length := by simp; omega
  rw [e, edit_replace d.text _ s.source (g ++ membersText b ++ '}' :: d.post)]
  · simp [textWith]
  · rw [Doc.text, h.eq, membersText_append]
    simp [membersText, Member.text, Member.body]

theorem ends_change (g : Str) (b : List (Member × Str)) :
    Ends (if b ≠ [] ∧ '\n' ∉ g then [';'] else []) g b := by
  by_cases h : b ≠ [] ∧ '\n' ∉ g
  · rw [if_pos h]; exact Or.inl rfl
  · rw [if_neg h]
    refine Or.inr ⟨rfl, ?_⟩
    by_cases hb : b = []
    · exact Or.inr hb
    · exact Or.inl (Classical.byContradiction fun hg => h ⟨hb, hg⟩)

theorem sortFiles_perm (l : List Str) : (sortFiles l).Perm l := Common.isort_perm _ l

theorem plain_eval (v : Str) (h : Plain v) :
    Literal.evaluate ('"' :: v ++ ['"']) = some (.str v) := by
  have he : Literal.escape v = v := by
    induction v with
    | nil => rfl
    | cons c v ih =>
      have hc := h c (by simp)
      rw [Literal.escape, if_neg (by simp [hc.1, hc.2.1]), ih (fun x hx => h x (by simp [hx]))]
  have := (Literal.C38_string_iff v).2 (fun c hc => (h c hc).2.2)
  rw [Literal.litStr, he] at this
  exact this

theorem removeLoop_ok (values : List Str) (elems : List Elem)
    (hv : elems.map (·.literal) = values.map some) (files : List Str) :
    ∃ stay left, removeLoop files elems = some (stay, left) ∧ stay.Sublist values ∧
      (values ++ left).Perm (files ++ stay) ∧
      (∀ x, x ∈ left → x ∉ stay) := by
  induction elems generalizing values files with
  | nil =>
    cases values with
    | nil => exact ⟨[], files, rfl, List.Sublist.refl _, by simp, by simp⟩
    | cons _ _ => simp at hv
  | cons e elems ih =>
    cases values with
    | nil => simp at hv
    | cons v values =>
      simp only [List.map_cons, List.cons.injEq] at hv
      by_cases hf : v ∈ files
      · obtain ⟨stay, left, h1, h2, h3, h5⟩ := ih values hv.2 (files.erase v)
        refine ⟨stay, left, ?_, h2.cons _, ?_, h5⟩
        · simp only [removeLoop, hv.1, hf, if_true, h1]
        · have : files.Perm (v :: files.erase v) := List.perm_cons_erase hf
          exact ((h3.cons v).trans (this.symm.append_right stay))
      · obtain ⟨stay, left, h1, h2, h3, h5⟩ := ih values hv.2 files
        refine ⟨v :: stay, left, ?_, h2.cons_cons _, ?_, ?_⟩
        · simp only [removeLoop, hv.1, hf, if_false, h1, Option.map_some]
        · exact (h3.cons v).trans List.perm_middle.symm
        · intro x hx hxs
          rcases List.mem_cons.1 hxs with h | h
          · subst h
            -- what is left was to be removed
            have hsub : ∀ (elems : List Elem) (files : List Str) stay left,
                removeLoop files elems = some (stay, left) → ∀ y ∈ left, y ∈ files := by
              intro elems
              induction elems with
              | nil =>
                intro files stay left h y hy
                simp only [removeLoop, Option.some.injEq, Prod.mk.injEq] at h
                rw [h.2]; exact hy
              | cons e elems ih2 =>
                intro files stay left h y hy
                simp only [removeLoop] at h
                cases hl : e.literal with
                | none => simp [hl] at h
                | some f =>
                  simp only [hl] at h
                  by_cases hf : f ∈ files
                  · rw [if_pos hf] at h
                    exact List.mem_of_mem_erase (ih2 _ _ _ h y hy)
                  · rw [if_neg hf] at h
                    cases hr : removeLoop files elems with
                    | none => simp [hr] at h
                    | some r =>
                      simp only [hr, Option.map_some, Option.some.injEq, Prod.mk.injEq] at h
                      exact ih2 _ _ _ hr y (by rw [h.2]; exact hy)
            exact hf (hsub _ _ _ _ h1 x hx)
          · exact h5 x hx h

end Verif.Updater
