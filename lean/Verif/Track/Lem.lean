import Verif.Track.Spec
namespace Verif.Track

/-! ## Association lists -/

theorem mem_of_look {β : Type} {k : String} {v : β} : ∀ {l : List (String × β)},
    look k l = some v → (k, v) ∈ l
  | [], h => by cases h
  | (k', v') :: l, h => by
    unfold look at h
    by_cases hk : k' = k
    · rw [if_pos hk] at h; cases h; rw [hk]; exact List.mem_cons_self
    · rw [if_neg hk] at h; exact List.mem_cons_of_mem _ (mem_of_look h)

theorem mem_put_self {β : Type} (k : String) (v : β) : ∀ (l : List (String × β)),
    (k, v) ∈ put k v l
  | [] => by simp [put]
  | (k', v') :: l => by
    unfold put
    by_cases hk : k' = k
    · rw [if_pos hk]; exact List.mem_cons_self
    · rw [if_neg hk]; exact List.mem_cons_of_mem _ (mem_put_self k v l)

theorem mem_put {β : Type} {k k' : String} {v v' : β} : ∀ {l : List (String × β)},
    (k', v') ∈ put k v l → (k', v') = (k, v) ∨ (k', v') ∈ l
  | [], h => by simp [put] at h; exact Or.inl (by simp [h])
  | (a, b) :: l, h => by
    unfold put at h
    by_cases hk : a = k
    · rw [if_pos hk] at h
      rcases List.mem_cons.mp h with h | h
      · exact Or.inl h
      · exact Or.inr (List.mem_cons_of_mem _ h)
    · rw [if_neg hk] at h
      rcases List.mem_cons.mp h with h | h
      · exact Or.inr (by rw [h]; exact List.mem_cons_self)
      · rcases mem_put h with h | h
        · exact Or.inl h
        · exact Or.inr (List.mem_cons_of_mem _ h)

/-- What was in the list is still there, or was the entry that has been replaced. -/
theorem mem_put_old {β : Type} {k k' : String} {v v' : β} : ∀ {l : List (String × β)},
    (k', v') ∈ l → (k', v') ∈ put k v l ∨ (k' = k ∧ look k l = some v')
  | (a, b) :: l, h => by
    unfold put look
    by_cases hk : a = k
    · rw [if_pos hk, if_pos hk]
      rcases List.mem_cons.mp h with h | h
      · cases h; exact Or.inr ⟨hk, rfl⟩
      · exact Or.inl (List.mem_cons_of_mem _ h)
    · rw [if_neg hk, if_neg hk]
      rcases List.mem_cons.mp h with h | h
      · cases h; exact Or.inl List.mem_cons_self
      · rcases mem_put_old (k := k) (v := v) h with h | h
        · exact Or.inl (List.mem_cons_of_mem _ h)
        · exact Or.inr h

theorem look_isSome_of_mem {β : Type} {k : String} {v : β} : ∀ {l : List (String × β)},
    (k, v) ∈ l → (look k l).isSome = true
  | (a, b) :: l, h => by
    unfold look
    by_cases hk : a = k
    · rw [if_pos hk]; rfl
    · rw [if_neg hk]
      rcases List.mem_cons.mp h with h | h
      · cases h; exact absurd rfl hk
      · exact look_isSome_of_mem h

theorem mem_insertProp_old {p q : Property} {l : List Property} (h : q ∈ l) :
    q ∈ insertProp p l := by
  unfold insertProp; split
  · exact h
  · simp [h]

theorem mem_insertProp {p q : Property} {l : List Property} (h : q ∈ insertProp p l) :
    q = p ∨ q ∈ l := by
  unfold insertProp at h
  split at h
  · exact Or.inr h
  · rcases List.mem_append.mp h with h | h
    · exact Or.inr h
    · exact Or.inl (by simpa using h)

theorem insertProp_same {p : Property} {l : List Property} :
    p ∈ insertProp p l ∨ ∃ q ∈ l, p.same q = true ∧ insertProp p l = l := by
  unfold insertProp
  by_cases h : l.any (p.same ·) = true
  · rw [if_pos h]
    obtain ⟨q, hq, hs⟩ := List.any_eq_true.mp h
    exact Or.inr ⟨q, hq, hs, rfl⟩
  · rw [if_neg h]; exact Or.inl (by simp)

theorem same_iff {p q : Property} : p.same q = true ↔
    p.owner = q.owner ∧ p.mname = q.mname ∧ p.key = q.key := by
  simp [Property.same, and_assoc]

theorem sameSet_iff {a b : List String} : sameSet a b = true ↔ ∀ x, x ∈ a ↔ x ∈ b := by
  simp only [sameSet, Bool.and_eq_true, List.all_eq_true, List.contains_iff_mem]
  constructor
  · rintro ⟨h1, h2⟩ x; exact ⟨h1 x, h2 x⟩
  · intro h; exact ⟨fun x hx => (h x).mp hx, fun x hx => (h x).mpr hx⟩

theorem product_mem {w : World} {n : String} {p : Product} (h : w.product n = some p) :
    p ∈ w.products ∧ p.name = n := by
  unfold World.product at h
  exact ⟨List.mem_of_find?_eq_some h, by simpa using List.find?_some h⟩

theorem artifact_some {w : World} {path prod : String} {a : Art}
    (h : w.artifact path prod = some a) :
    ∃ p, w.product prod = some p ∧ a ∈ p.arts ∧ a.path = path := by
  unfold World.artifact at h
  cases hp : w.product prod with
  | none => rw [hp] at h; cases h
  | some p =>
    rw [hp] at h
    exact ⟨p, rfl, List.mem_of_find?_eq_some h, by simpa using List.find?_some h⟩

/-! ## The check as a list of conditions -/

/-- `needsRerun` spelled out. -/
structure Ok (w : World) (r : Rec) : Prop where
  props : ∀ p ∈ r.props, p.value = currentValue w p
  imports : ∀ f t, (f, t) ∈ r.imports → ∃ m c, w.files f = some (m, c) ∧ m ≤ t
  viaArt : ∀ path l, (path, l) ∈ r.viaArt → ∀ p ∈ l, viaArtOk w path p = true
  deps : ∀ p ∈ w.products, ∀ names, look p.name r.deps = some names →
    ∀ x, x ∈ depNames p ↔ x ∈ names
  arts : ∀ n ra, (n, ra) ∈ r.arts → ∃ p, w.product n = some p ∧ p.enabled = true ∧
    (∀ tag paths, (tag, paths) ∈ ra.requested → ∀ x, (∃ a ∈ p.tagged tag, a.path = x) ↔ x ∈ paths) ∧
    (ra.enumerated = true → ∀ x, x ∈ p.allTags ↔ x ∈ ra.allTags)
  exported : ∀ n k, (n, k) ∈ r.exported → ∃ p, w.product n = some p ∧ p.exported = k

theorem isUpToDate_iff (ra : PerProduct) (p : Product) : ra.isUpToDate p = true ↔
    p.enabled = true ∧
    (∀ tag paths, (tag, paths) ∈ ra.requested → ∀ x, (∃ a ∈ p.tagged tag, a.path = x) ↔ x ∈ paths) ∧
    (ra.enumerated = true → ∀ x, x ∈ p.allTags ↔ x ∈ ra.allTags) := by
  have hall : ra.requested.all (fun kv => sameSet ((p.tagged kv.1).map (·.path)) kv.2) = true ↔
      ∀ tag paths, (tag, paths) ∈ ra.requested → ∀ x, (∃ a ∈ p.tagged tag, a.path = x) ↔ x ∈ paths := by
    rw [List.all_eq_true]
    constructor
    · intro h tag paths hm x
      have := sameSet_iff.mp (h _ hm) x
      simpa using this
    · intro h kv hkv
      refine sameSet_iff.mpr (fun x => ?_)
      have := h kv.1 kv.2 hkv x
      simpa using this
  unfold PerProduct.isUpToDate
  cases hen : p.enabled with
  | false => simp
  | true =>
    simp only [Bool.not_true, Bool.false_eq_true, if_false, true_and]
    cases henum : ra.enumerated with
    | false =>
      simp only [Bool.not_false, Bool.true_and, Bool.false_eq_true, false_implies, and_true,
        if_true]
      rw [← hall]
      by_cases hemp : ra.requested.isEmpty = true
      · rw [if_pos hemp]
        have : ra.requested = [] := by simpa using hemp
        simp [this]
      · rw [if_neg hemp]
        split
        · rename_i h; simp at h; simp; exact h
        · rename_i h; simpa using h
    | true =>
      simp only [Bool.not_true, Bool.false_and, Bool.false_eq_true, if_false, true_implies]
      rw [← hall, ← sameSet_iff]
      cases hq : ra.requested.all (fun kv => sameSet ((p.tagged kv.1).map (·.path)) kv.2) <;> simp

theorem needsRerun_false_iff (w : World) (hw : w.WF) (r : Rec) :
    needsRerun w r = false ↔ Ok w r := by
  unfold needsRerun
  simp only [Bool.or_eq_false_iff, Bool.not_eq_false', and_assoc]
  have h1 : r.props.any (fun p => p.value != currentValue w p) = false ↔
      ∀ p ∈ r.props, p.value = currentValue w p := by
    rw [List.any_eq_false]; simp
  have h2 : importsChanged w r.imports = false ↔
      ∀ f t, (f, t) ∈ r.imports → ∃ m c, w.files f = some (m, c) ∧ m ≤ t := by
    unfold importsChanged
    rw [List.any_eq_false]
    constructor
    · intro h f t hm
      have := h _ hm
      simp only at this
      cases hf : w.files f with
      | none => rw [hf] at this; simp at this
      | some mc =>
        obtain ⟨m, c⟩ := mc
        rw [hf] at this
        simp at this
        exact ⟨m, c, rfl, this⟩
    · rintro h ⟨f, t⟩ hm
      obtain ⟨m, c, hf, hle⟩ := h f t hm
      simp [hf, hle]
  have h3 : r.viaArt.any (fun kv => kv.2.any (fun p => !viaArtOk w kv.1 p)) = false ↔
      ∀ path l, (path, l) ∈ r.viaArt → ∀ p ∈ l, viaArtOk w path p = true := by
    rw [List.any_eq_false]
    constructor
    · intro h path l hm p hp
      have := h _ hm
      simp at this
      exact this p hp
    · rintro h ⟨path, l⟩ hm
      simp
      exact fun p hp => h path l hm p hp
  have h4 : depsUpToDate w r.deps = true ↔ ∀ p ∈ w.products, ∀ names,
      look p.name r.deps = some names → ∀ x, x ∈ depNames p ↔ x ∈ names := by
    unfold depsUpToDate
    rw [List.all_eq_true]
    constructor
    · intro h p hp names hl
      have := h p hp
      simp only [hl] at this
      exact sameSet_iff.mp this
    · intro h p hp
      cases hl : look p.name r.deps with
      | none => rfl
      | some names => exact sameSet_iff.mpr (h p hp names hl)
  have h5 : artsUpToDate w r.arts = true ↔ ∀ n ra, (n, ra) ∈ r.arts →
      ∃ p, w.product n = some p ∧ p.enabled = true ∧
      (∀ tag paths, (tag, paths) ∈ ra.requested →
        ∀ x, (∃ a ∈ p.tagged tag, a.path = x) ↔ x ∈ paths) ∧
      (ra.enumerated = true → ∀ x, x ∈ p.allTags ↔ x ∈ ra.allTags) := by
    unfold artsUpToDate
    rw [List.all_eq_true]
    constructor
    · intro h n ra hm
      have := h _ hm
      simp only at this
      cases hp : w.product n with
      | none => rw [hp] at this; cases this
      | some p =>
        rw [hp] at this
        exact ⟨p, rfl, (isUpToDate_iff ra p).mp this⟩
    · rintro h ⟨n, ra⟩ hm
      obtain ⟨p, hp, hq⟩ := h n ra hm
      simp only [hp]
      exact (isUpToDate_iff ra p).mpr hq
  have h6 : exportedUpToDate w r.exported = true ↔
      ∀ n k, (n, k) ∈ r.exported → ∃ p, w.product n = some p ∧ p.exported = k := by
    unfold exportedUpToDate
    rw [List.all_eq_true]
    constructor
    · intro h n k hm
      have := h _ hm
      simp only at this
      cases hp : w.product n with
      | none => rw [hp] at this; cases this
      | some p => rw [hp] at this; exact ⟨p, rfl, by simpa using this⟩
    · rintro h ⟨n, k⟩ hm
      obtain ⟨p, hp, hq⟩ := h n k hm
      simp [hp, hq]
  rw [h1, h2, h3, h4, h5, h6]
  constructor
  · rintro ⟨a, b, c, d, e, f⟩; exact ⟨a, b, c, d, e, f⟩
  · rintro ⟨a, b, c, d, e, f⟩; exact ⟨a, b, c, d, e, f⟩

/-! ## What a record made in world `w` looks like -/

def kindOk (w : World) (p : Property) : Prop :=
  match p.kind, p.mname with
  | .inModule, .mod _ => True
  | .inProduct, .none => w.product p.owner ≠ none
  | .inProject, .none => w.product p.owner = none
  | .inParameters, .param _ _ => True
  | _, _ => False

structure Inv (w : World) (now : Nat) (r : Rec) : Prop where
  props : ∀ p ∈ r.props, p.value = currentValue w p ∧ kindOk w p
  viaArt : ∀ path l, (path, l) ∈ r.viaArt → ∀ p ∈ l, ∃ a, w.artifact path p.owner = some a ∧
    ((p.kind = .inModule ∧ ∃ m, p.mname = .mod m ∧ p.value = a.props m p.key) ∨
     (p.kind = .inArtifact ∧ p.mname = .none ∧ p.value = .strs a.tags))
  deps : ∀ n names, (n, names) ∈ r.deps → ∃ p, w.product n = some p ∧ names = depNames p
  arts : ∀ n ra, (n, ra) ∈ r.arts → ∃ p, w.product n = some p ∧ p.enabled = true ∧
    (ra.allTags = [] ∨ ra.allTags = p.allTags) ∧ (ra.enumerated = true → ra.allTags = p.allTags) ∧
    ∀ tag paths, (tag, paths) ∈ ra.requested → ∀ x, (∃ a ∈ p.tagged tag, a.path = x) ↔ x ∈ paths
  imports : ∀ f t, (f, t) ∈ r.imports → t = now ∧ ∃ m c, w.files f = some (m, c) ∧ m ≤ now
  exported : ∀ n k, (n, k) ∈ r.exported → ∃ p, w.product n = some p ∧ k = p.exported

theorem Inv.empty (w : World) (now : Nat) : Inv w now {} := by
  constructor <;> simp

/-- Nothing has changed: no need to run again. -/
theorem Inv.ok {w : World} {now : Nat} {r : Rec} (hw : w.WF) (h : Inv w now r) : Ok w r := by
  refine ⟨fun p hp => (h.props p hp).1, ?_, ?_, ?_, ?_, ?_⟩
  · intro f t hm
    obtain ⟨rfl, m, c, h1, h2⟩ := h.imports f t hm
    exact ⟨m, c, h1, h2⟩
  · intro path l hm p hp
    obtain ⟨a, ha, hc⟩ := h.viaArt path l hm p hp
    unfold viaArtOk
    rw [ha]
    rcases hc with ⟨h1, m, h2, h3⟩ | ⟨h1, h2, h3⟩
    · simp only [h1, h2, h3]; simp
    · simp only [h1, h2, h3]; exact sameSet_iff.mpr (fun _ => Iff.rfl)
  · intro p hp names hl x
    obtain ⟨q, hq, rfl⟩ := h.deps _ _ (mem_of_look hl)
    rw [hw.unique p hp] at hq
    cases hq; exact Iff.rfl
  · intro n ra hm
    obtain ⟨p, h1, h2, h3, h4, h5⟩ := h.arts n ra hm
    exact ⟨p, h1, h2, h5, fun he x => by rw [h4 he]⟩
  · intro n k hm
    obtain ⟨p, h1, h2⟩ := h.exported n k hm
    exact ⟨p, h1, h2.symm⟩

/-- Two recorded properties with the same key are the same. -/
theorem same_eq {w : World} {p q : Property} (hs : p.same q = true)
    (hp : p.value = currentValue w p ∧ kindOk w p) (hq : q.value = currentValue w q ∧ kindOk w q) :
    p = q := by
  obtain ⟨h1, h2, h3⟩ := same_iff.mp hs
  obtain ⟨o, m, k, v, kd⟩ := p
  obtain ⟨o', m', k', v', kd'⟩ := q
  simp only at h1 h2 h3
  subst h1 h2 h3
  obtain ⟨a1, a2⟩ := hp
  obtain ⟨b1, b2⟩ := hq
  have hk : kd = kd' := by
    clear a1 b1 hs
    cases kd <;> cases kd' <;> cases m <;>
      first | rfl | exact False.elim a2 | exact False.elim b2 | exact absurd b2 a2 | exact absurd a2 b2
  subst hk
  simp only [currentValue] at a1 b1
  rw [a1, b1]

end Verif.Track
