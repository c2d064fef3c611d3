import Verif.Track.Witness
/-!
# C33: artifact maps and merged records
-/
namespace Verif.Track

/-! ## Histories of accesses to artifact maps -/

/-- An access to the map of a product's artifacts: the artifacts of one tag, or all tags. -/
structure Access where
  prod : String
  tag : Option String

/-- The record of a sequence of accesses (artifactsscriptvalue.cpp 98-188); `force`:
the argument of `setAllArtifactTags`, the map having been built anew. -/
def recordAccess (w : World) (force : Bool) (x : Access) (l : List (String × PerProduct)) :
    List (String × PerProduct) :=
  match w.product x.prod, x.tag with
  | none, _ => l
  | some p, some tag =>
    if (p.tagged tag).isEmpty then setNonExistingTagRequested p tag (setAllArtifactTags p force l)
    else setArtifactsForTag p tag (setAllArtifactTags p force l)
  | some p, none => setArtifactsEnumerated p (setAllArtifactTags p force l)

def recordAccesses (w : World) (xs : List (Bool × Access)) (l : List (String × PerProduct)) :
    List (String × PerProduct) :=
  xs.foldl (fun l x => recordAccess w x.1 x.2 l) l

/-- The access gives the same as before: the product is there and enabled, and has the same
artifacts with the tag or artifacts with the same tags. -/
def Same (w1 w2 : World) (x : Access) : Prop :=
  ∃ p1 p2, w1.product x.prod = some p1 ∧ w2.product x.prod = some p2 ∧ p2.enabled = true ∧
    (∀ tag, x.tag = some tag → ∀ f, (∃ a ∈ p2.arts, tag ∈ a.tags ∧ a.path = f) ↔
      (∃ a ∈ p1.arts, tag ∈ a.tags ∧ a.path = f)) ∧
    (x.tag = none → ∀ tag, (∃ a ∈ p2.arts, tag ∈ a.tags) ↔ (∃ a ∈ p1.arts, tag ∈ a.tags))

theorem tagged_iff {p : Product} {tag f : String} :
    (∃ a ∈ p.tagged tag, a.path = f) ↔ (∃ a ∈ p.arts, tag ∈ a.tags ∧ a.path = f) := by
  unfold Product.tagged
  constructor
  · rintro ⟨a, h1, h2⟩
    obtain ⟨h3, h4⟩ := List.mem_filter.mp h1
    exact ⟨a, h3, by simpa using h4, h2⟩
  · rintro ⟨a, h1, h2, h3⟩
    exact ⟨a, List.mem_filter.mpr ⟨h1, by simpa using h2⟩, h3⟩

theorem allTags_iff {p : Product} {tag : String} : tag ∈ p.allTags ↔ ∃ a ∈ p.arts, tag ∈ a.tags := by
  simp [Product.allTags]

theorem ArtsOk.put {w : World} {n : String} {new : PerProduct} {l : List (String × PerProduct)}
    (h : ArtsOk w l) {p : Product} (hp : w.product n = some p) (he : p.enabled = true)
    (hr : ∀ tag paths, (tag, paths) ∈ new.requested →
      ∀ x, (∃ a ∈ p.tagged tag, a.path = x) ↔ x ∈ paths)
    (hn : new.enumerated = true → ∀ x, x ∈ p.allTags ↔ x ∈ new.allTags) :
    ArtsOk w (Track.put n new l) := by
  intro m ra hm
  rcases mem_put hm with h1 | h1
  · cases h1; exact ⟨p, hp, he, hr, hn⟩
  · exact h m ra h1

theorem look_ok {w : World} {l : List (String × PerProduct)} (h : ArtsOk w l) {n : String} {p : Product}
    (hp : w.product n = some p) :
    (∀ tag paths, (tag, paths) ∈ ((look n l).getD {}).requested →
      ∀ x, (∃ a ∈ p.tagged tag, a.path = x) ↔ x ∈ paths) ∧
    (((look n l).getD {}).enumerated = true → ∀ x, x ∈ p.allTags ↔ x ∈ ((look n l).getD {}).allTags) := by
  cases hl : look n l with
  | none => exact ⟨fun _ _ hh => absurd hh (by simp), fun hh => absurd hh (by simp)⟩
  | some ra =>
    obtain ⟨q, hq, _, h3, h4⟩ := h n ra (mem_of_look hl)
    rw [hp] at hq; cases hq
    exact ⟨h3, h4⟩

theorem setAll_ok_mk {w1 w2 : World} {p p2 : Product} {l : List (String × PerProduct)}
    (hi : ArtsInv w1 l) (hp : w1.product p.name = some p) (hen : p.enabled = true)
    (h : ArtsOk w2 l) (hp2 : w2.product p.name = some p2) (he2 : p2.enabled = true) (force : Bool) :
    ArtsOk w2 (setAllArtifactTags p force l) := by
  have he := entryInv_look hi hp hen
  obtain ⟨o1, o2⟩ := look_ok h hp2
  unfold setAllArtifactTags
  simp only
  split
  · exact h.put hp2 he2 o1 o2
  · refine h.put hp2 he2 o1 (fun hh x => ?_)
    have := he.2.2.1 hh
    rw [o2 hh x, this]

theorem recordAccess_step {w1 : World} {l : List (String × PerProduct)} (hi : ArtsInv w1 l)
    {x : Access} (hx : ∃ p, w1.product x.prod = some p ∧ p.enabled = true) (force : Bool) :
    ArtsInv w1 (recordAccess w1 force x l) ∧
    ∀ w2, ArtsOk w2 (recordAccess w1 force x l) ↔ (ArtsOk w2 l ∧ Same w1 w2 x) := by
  obtain ⟨p, hp, hpe⟩ := hx
  have hpn := (product_mem hp).2
  have hp' : w1.product p.name = some p := by rw [hpn]; exact hp
  obtain ⟨prod, tag⟩ := x
  simp only at hp hpn
  cases tag with
  | some tag =>
    obtain ⟨c1, c2⟩ := tagged_step hi hp' hpe force tag
    have hr : recordAccess w1 force ⟨prod, some tag⟩ l = taggedArts p force tag l := by
      simp only [recordAccess, hp, taggedArts]
    rw [hr]
    refine ⟨c1, fun w2 => ⟨fun h => ?_, fun h => ?_⟩⟩
    · obtain ⟨d1, p2, d2, d3⟩ := c2 w2 h
      refine ⟨d1, p, p2, hp, by rw [← hpn]; exact d2, ?_, ?_, fun hh => by cases hh⟩
      · have hmem : ∃ ra, (p.name, ra) ∈ taggedArts p force tag l := by
          unfold taggedArts; split
          · exact ⟨_, mem_put_self _ _ _⟩
          · exact ⟨_, mem_put_self _ _ _⟩
        obtain ⟨ra, hra⟩ := hmem
        obtain ⟨p3, e1, e2, _⟩ := h _ _ hra
        rw [d2] at e1; cases e1; exact e2
      · intro t ht f
        cases ht
        rw [← tagged_iff, ← tagged_iff]
        exact d3 f
    · obtain ⟨hok, p1, p2, g1, g2, g3, g4, _⟩ := h
      simp only at g1 g2 g4
      rw [hp] at g1; cases g1
      have g2' : w2.product p.name = some p2 := by rw [hpn]; exact g2
      have hall := setAll_ok_mk hi hp' hpe hok g2' g3 force
      have hi1 := setAll_inv hi hp' hpe force
      have he := entryInv_look hi1 hp' hpe
      obtain ⟨o1, o2⟩ := look_ok hall g2'
      have key : ∀ add : List String, (∀ x, (∃ a ∈ p.tagged tag, a.path = x) ↔ x ∈ add) →
          let ra := (look p.name (setAllArtifactTags p force l)).getD {}
          let rq := Track.put tag ((look tag ra.requested).getD [] ++ add) ra.requested
          ArtsOk w2 (Track.put p.name { ra with requested := rq } (setAllArtifactTags p force l)) := by
        intro add hadd ra rq
        obtain ⟨s1, _, _⟩ := setTag_entry hi hp' hpe tag add hadd ra he
        refine hall.put g2' g3 ?_ o2
        intro t paths hm
        rcases mem_put hm with h1 | h1
        · cases h1
          intro f
          rw [← s1 f, tagged_iff, tagged_iff]
          exact g4 tag rfl f
        · exact o1 t paths h1
      unfold taggedArts
      split
      · rename_i hemp
        have := key [] (getTag_none hemp)
        simp only [List.append_nil] at this
        exact this
      · exact key ((p.tagged tag).map (·.path)) (fun x => by simp)
  | none =>
    obtain ⟨c1, c2⟩ := tags_step hi hp' hpe force
    have hr : recordAccess w1 force ⟨prod, none⟩ l =
        setArtifactsEnumerated p (setAllArtifactTags p force l) := by
      simp only [recordAccess, hp]
    rw [hr]
    refine ⟨c1, fun w2 => ⟨fun h => ?_, fun h => ?_⟩⟩
    · obtain ⟨d1, p2, d2, d3⟩ := c2 w2 h
      refine ⟨d1, p, p2, hp, by rw [← hpn]; exact d2, ?_, (fun _ hh => by cases hh), ?_⟩
      · obtain ⟨p3, e1, e2, _⟩ := h _ _ (mem_put_self _ _ _)
        rw [d2] at e1; cases e1; exact e2
      · intro _ t
        rw [← allTags_iff, ← allTags_iff]
        exact d3 t
    · obtain ⟨hok, p1, p2, g1, g2, g3, _, g5⟩ := h
      simp only at g1 g2 g5
      rw [hp] at g1; cases g1
      have g2' : w2.product p.name = some p2 := by rw [hpn]; exact g2
      have hall := setAll_ok_mk hi hp' hpe hok g2' g3 force
      obtain ⟨o1, o2⟩ := look_ok hall g2'
      refine hall.put g2' g3 o1 (fun _ x => ?_)
      show _ ↔ x ∈ PerProduct.allTags _
      rw [setAll_tags hi hp' hpe force, allTags_iff, allTags_iff]
      exact g5 trivial x

theorem isUpToDate_artsOk (w : World) (l : List (String × PerProduct)) :
    artsUpToDate w l = true ↔ ArtsOk w l := by
  unfold artsUpToDate ArtsOk
  rw [List.all_eq_true]
  constructor
  · intro h n ra hm
    have := h (n, ra) hm
    simp only at this
    cases hp : w.product n with
    | none => rw [hp] at this; cases this
    | some p =>
      rw [hp] at this
      exact ⟨p, rfl, (isUpToDate_iff _ _).mp this⟩
  · rintro h ⟨n, ra⟩ hm
    obtain ⟨p, h1, h2⟩ := h n ra hm
    simp only [h1]
    exact (isUpToDate_iff _ _).mpr h2

/-- **C33.** However often and in which order a script has used the artifact maps of products, the
record is up to date iff each access would give the same as before. -/
theorem C33_up_to_date_iff_same (w1 w2 : World) (xs : List (Bool × Access))
    (hx : ∀ x ∈ xs, ∃ p, w1.product x.2.prod = some p ∧ p.enabled = true) :
    artsUpToDate w2 (recordAccesses w1 xs []) = true ↔ ∀ x ∈ xs, Same w1 w2 x.2 := by
  rw [isUpToDate_artsOk]
  have key : ∀ (xs : List (Bool × Access)) (l : List (String × PerProduct)), ArtsInv w1 l →
      (∀ x ∈ xs, ∃ p, w1.product x.2.prod = some p ∧ p.enabled = true) →
      (ArtsOk w2 (recordAccesses w1 xs l) ↔ (ArtsOk w2 l ∧ ∀ x ∈ xs, Same w1 w2 x.2)) := by
    intro xs
    induction xs with
    | nil => intro l _ _; simp [recordAccesses]
    | cons x xs ih =>
      intro l hi hx
      obtain ⟨s1, s2⟩ := recordAccess_step hi (hx x List.mem_cons_self) x.1
      have := ih (recordAccess w1 x.1 x.2 l) s1 (fun y hy => hx y (List.mem_cons_of_mem _ hy))
      show ArtsOk w2 (recordAccesses w1 xs (recordAccess w1 x.1 x.2 l)) ↔ _
      rw [this, s2 w2]
      simp only [List.mem_cons, forall_eq_or_imp]
      constructor
      · rintro ⟨⟨a, b⟩, c⟩; exact ⟨a, b, c⟩
      · rintro ⟨a, b, c⟩; exact ⟨⟨a, b⟩, c⟩
  rw [key xs [] (fun _ _ h => by cases h) hx]
  exact ⟨fun h => h.2, fun h => ⟨fun _ _ hh => (by cases hh), h⟩⟩

example : ∀ x ∈ [(true, Access.mk "app" (some "obj")), (false, ⟨"app", none⟩), (true, ⟨"lib", some "x"⟩)],
    ∃ p, (world app lib).product x.2.prod = some p ∧ p.enabled = true := by
  intro x hx
  simp only [List.mem_cons, List.not_mem_nil, or_false] at hx
  rcases hx with rfl | rfl | rfl
  · exact ⟨app, rfl, rfl⟩
  · exact ⟨app, rfl, rfl⟩
  · exact ⟨lib, rfl, rfl⟩

/-- The accesses above in a later world: the new object file is noticed. -/
example : artsUpToDate (world app' lib) (recordAccesses (world app lib)
    [(true, ⟨"app", some "obj"⟩), (false, ⟨"app", none⟩), (true, ⟨"lib", some "x"⟩)] []) = false ∧
  artsUpToDate (world app' lib) (recordAccesses (world app lib)
    [(false, ⟨"app", none⟩), (true, ⟨"lib", some "x"⟩)] []) = true := by decide

/-! ## Association lists without duplicate keys -/

def Keys {β : Type} (l : List (String × β)) : Prop := (l.map (·.1)).Nodup

theorem Keys.look_of_mem {β : Type} : ∀ {l : List (String × β)}, Keys l → ∀ {k v}, (k, v) ∈ l →
    look k l = some v
  | (a, b) :: l, hn, k, v, h => by
    simp only [Keys, List.map_cons, List.nodup_cons] at hn
    unfold look
    rcases List.mem_cons.mp h with h | h
    · cases h; rw [if_pos rfl]
    · have : a ≠ k := fun he => hn.1 (by rw [he]; exact List.mem_map_of_mem (f := (·.1)) h)
      rw [if_neg this]
      exact Keys.look_of_mem hn.2 h

theorem put_keys_sub {β : Type} {k x : String} {v : β} : ∀ {l : List (String × β)},
    x ∈ (put k v l).map (·.1) → x = k ∨ x ∈ l.map (·.1)
  | [], h => by simpa [put] using h
  | (a, b) :: l, h => by
    unfold put at h
    by_cases hk : a = k
    · rw [if_pos hk] at h
      simp only [List.map_cons, List.mem_cons] at h ⊢
      rcases h with h | h
      · exact Or.inl h
      · exact Or.inr (Or.inr h)
    · rw [if_neg hk] at h
      simp only [List.map_cons, List.mem_cons] at h ⊢
      rcases h with h | h
      · exact Or.inr (Or.inl h)
      · rcases put_keys_sub h with h | h
        · exact Or.inl h
        · exact Or.inr (Or.inr h)

theorem Keys.put {β : Type} {k : String} {v : β} : ∀ {l : List (String × β)}, Keys l →
    Keys (Track.put k v l)
  | [], _ => by simp [Keys, Track.put]
  | (a, b) :: l, hn => by
    have hn' := hn
    simp only [Keys, List.map_cons, List.nodup_cons] at hn
    unfold Track.put
    by_cases hk : a = k
    · rw [if_pos hk]; subst hk; exact hn'
    · rw [if_neg hk]
      simp only [Keys, List.map_cons, List.nodup_cons]
      refine ⟨fun h => ?_, Keys.put hn.2⟩
      rcases put_keys_sub h with h | h
      · exact hk h
      · exact hn.1 h

theorem look_none_of_not_mem {β : Type} {k : String} : ∀ {l : List (String × β)},
    k ∉ l.map (·.1) → look k l = none
  | [], _ => rfl
  | (a, b) :: l, h => by
    simp only [List.map_cons, List.mem_cons, not_or] at h
    unfold look
    rw [if_neg (Ne.symm h.1)]
    exact look_none_of_not_mem h.2

/-- Insertion of all entries of one list into another. -/
theorem look_foldPut {β : Type} (k : String) : ∀ (b a : List (String × β)), Keys b →
    look k (b.foldl (fun acc kv => put kv.1 kv.2 acc) a) = (look k b).or (look k a)
  | [], a, _ => rfl
  | (k1, v1) :: b, a, hn => by
    simp only [Keys, List.map_cons, List.nodup_cons] at hn
    rw [List.foldl_cons, look_foldPut k b _ hn.2]
    by_cases hk : k1 = k
    · subst hk
      rw [look_none_of_not_mem hn.1, look_put_self]
      simp [look]
    · rw [look_put_ne _ (Ne.symm hk)]
      simp [look, hk]

theorem keys_foldPut {β : Type} : ∀ (b : List (String × β)) {a : List (String × β)}, Keys a →
    Keys (b.foldl (fun acc kv => put kv.1 kv.2 acc) a)
  | [], _, h => h
  | (_, _) :: b, _, h => keys_foldPut b h.put

theorem look_unite (k : String) : ∀ (b a : List (String × PerProduct)), Keys b →
    look k (uniteArts a b) =
      match look k b with
      | none => look k a
      | some rb => some (((look k a).getD {}).unite rb)
  | [], a, _ => rfl
  | (k1, v1) :: b, a, hn => by
    simp only [Keys, List.map_cons, List.nodup_cons] at hn
    show look k (uniteArts (put k1 (((look k1 a).getD {}).unite v1) a) b) = _
    rw [look_unite k b _ hn.2]
    by_cases hk : k1 = k
    · subst hk
      rw [look_none_of_not_mem hn.1, look_put_self]
      simp [look]
    · rw [look_put_ne _ (Ne.symm hk)]
      simp [look, hk]

theorem keys_unite : ∀ (b a : List (String × PerProduct)), Keys a → Keys (uniteArts a b)
  | [], _, h => h
  | (_, _) :: b, _, h => keys_unite b _ h.put

theorem mem_foldAdd {β : Type} : ∀ (b a : List (String × β)) {k : String} {v : β},
    (k, v) ∈ b.foldl (fun acc kv => if (look kv.1 acc).isSome then acc else acc ++ [kv]) a →
    (k, v) ∈ a ∨ (k, v) ∈ b
  | [], _, _, _, h => Or.inl h
  | (k1, v1) :: b, a, k, v, h => by
    rw [List.foldl_cons] at h
    rcases mem_foldAdd b _ h with h | h
    · split at h
      · exact Or.inl h
      · rcases List.mem_append.mp h with h | h
        · exact Or.inl h
        · exact Or.inr (by simp at h; simp [h])
    · exact Or.inr (List.mem_cons_of_mem _ h)

theorem foldAdd_old {β : Type} : ∀ (b a : List (String × β)) {kv : String × β}, kv ∈ a →
    kv ∈ b.foldl (fun acc kv => if (look kv.1 acc).isSome then acc else acc ++ [kv]) a
  | [], _, _, h => h
  | (k1, v1) :: b, a, kv, h => by
    rw [List.foldl_cons]
    refine foldAdd_old b _ ?_
    split
    · exact h
    · exact List.mem_append_left _ h

/-- An entry of the second list is in the result, or an entry with its key. -/
theorem foldAdd_new {β : Type} : ∀ (b a : List (String × β)) {k : String} {v : β}, (k, v) ∈ b →
    ∃ v', ((k, v') ∈ a ∨ (k, v') ∈ b) ∧
      (k, v') ∈ b.foldl (fun acc kv => if (look kv.1 acc).isSome then acc else acc ++ [kv]) a
  | (k1, v1) :: b, a, k, v, h => by
    rw [List.foldl_cons]
    rcases List.mem_cons.mp h with h | h
    · cases h
      simp only
      split
      · rename_i hs
        obtain ⟨v', hv'⟩ := Option.isSome_iff_exists.mp hs
        exact ⟨v', Or.inl (mem_of_look hv'), foldAdd_old b _ (mem_of_look hv')⟩
      · exact ⟨v1, Or.inr List.mem_cons_self, foldAdd_old b _ (by simp)⟩
    · obtain ⟨v', h1, h2⟩ := foldAdd_new b
        (if (look k1 a).isSome then a else a ++ [(k1, v1)]) h
      refine ⟨v', ?_, h2⟩
      rcases h1 with h1 | h1
      · split at h1
        · exact Or.inl h1
        · rcases List.mem_append.mp h1 with h1 | h1
          · exact Or.inl h1
          · exact Or.inr (by simp at h1; simp [h1])
      · exact Or.inr (List.mem_cons_of_mem _ h1)

/-! ## The shape of records -/

structure Made (w : World) (r : Rec) : Prop where
  viaArt : Keys r.viaArt
  deps : Keys r.deps
  arts : Keys r.arts
  requested : ∀ n ra, (n, ra) ∈ r.arts → Keys ra.requested
  tags : ∀ n ra, (n, ra) ∈ r.arts → ∃ p, w.product n = some p ∧ ra.allTags = p.allTags

theorem Made.empty (w : World) : Made w {} :=
  ⟨by simp [Keys], by simp [Keys], by simp [Keys], (fun _ _ h => by cases h), (fun _ _ h => by cases h)⟩

structure ArtsMade (w : World) (l : List (String × PerProduct)) : Prop where
  keys : Keys l
  requested : ∀ n ra, (n, ra) ∈ l → Keys ra.requested
  tags : ∀ n ra, (n, ra) ∈ l → ∃ p, w.product n = some p ∧ ra.allTags = p.allTags

theorem ArtsMade.put {w : World} {l : List (String × PerProduct)} (h : ArtsMade w l) {n : String}
    {new : PerProduct} {p : Product} (hp : w.product n = some p) (ht : new.allTags = p.allTags)
    (hk : Keys new.requested) : ArtsMade w (Track.put n new l) := by
  refine ⟨h.keys.put, ?_, ?_⟩
  · intro m ra hm
    rcases mem_put hm with h1 | h1
    · cases h1; exact hk
    · exact h.requested m ra h1
  · intro m ra hm
    rcases mem_put hm with h1 | h1
    · cases h1; exact ⟨p, hp, ht⟩
    · exact h.tags m ra h1

theorem ArtsMade.look {w : World} {l : List (String × PerProduct)} (h : ArtsMade w l) (n : String) :
    Keys ((look n l).getD {}).requested := by
  cases hl : Track.look n l with
  | none => simp [Keys]
  | some ra => exact h.requested n ra (mem_of_look hl)

theorem setAll_made {w : World} {p : Product} {l : List (String × PerProduct)} (hi : ArtsInv w l)
    (hp : w.product p.name = some p) (hen : p.enabled = true) (h : ArtsMade w l) (force : Bool) :
    ArtsMade w (setAllArtifactTags p force l) := by
  have ht := setAll_tags hi hp hen force
  unfold setAllArtifactTags at ht ⊢
  simp only at ht ⊢
  split
  · rename_i hc
    rw [if_pos hc, look_put_self] at ht
    exact h.put hp ht (h.look _)
  · exact h.put hp rfl (h.look _)

theorem tagged_made {w : World} {p : Product} {l : List (String × PerProduct)} (hi : ArtsInv w l)
    (hp : w.product p.name = some p) (hen : p.enabled = true) (h : ArtsMade w l) (force : Bool)
    (tag : String) : ArtsMade w (taggedArts p force tag l) := by
  have ht := setAll_tags hi hp hen force
  have hm := setAll_made hi hp hen h force
  unfold taggedArts
  split
  · exact hm.put hp ht (hm.look _).put
  · exact hm.put hp ht (hm.look _).put

theorem record_made {w : World} {now : Nat} {s : Scope} {r : Rec} {flag : Bool} {q : Query}
    (hs : ScopeOk w now s) (hi : Inv w now r) (hq : q.inScope s) (hm : Made w r) :
    Made w (record w flag now q r) := by
  have hma : ArtsMade w r.arts := ⟨hm.arts, hm.requested, hm.tags⟩
  cases q with
  | prodProp prod key =>
    show Made w (match (w.product prod).bind (·.pprops key) with
      | some v => { r with props := insertProp ⟨prod, .none, key, v, .inProduct⟩ r.props }
      | none => r)
    split
    · exact ⟨hm.viaArt, hm.deps, hm.arts, hm.requested, hm.tags⟩
    · exact hm
  | modProp prod m key => exact ⟨hm.viaArt, hm.deps, hm.arts, hm.requested, hm.tags⟩
  | projProp proj key => exact ⟨hm.viaArt, hm.deps, hm.arts, hm.requested, hm.tags⟩
  | param prod dep m key => exact ⟨hm.viaArt, hm.deps, hm.arts, hm.requested, hm.tags⟩
  | artProp path prod m key => exact ⟨hm.viaArt.put, hm.deps, hm.arts, hm.requested, hm.tags⟩
  | artTags path prod => exact ⟨hm.viaArt.put, hm.deps, hm.arts, hm.requested, hm.tags⟩
  | use file => exact ⟨hm.viaArt, hm.deps, hm.arts, hm.requested, hm.tags⟩
  | exported prod =>
    obtain ⟨p, hp, hpe⟩ := hs.products prod hq
    simp only [record, hp]
    exact ⟨hm.viaArt, hm.deps, hm.arts, hm.requested, hm.tags⟩
  | deps prod =>
    obtain ⟨p, hp, hpe⟩ := hs.products prod hq
    simp only [record, hp]
    exact ⟨hm.viaArt, hm.deps.put, hm.arts, hm.requested, hm.tags⟩
  | moduleTagged prod m tag =>
    obtain ⟨p, hp, hpe⟩ := hs.products prod hq
    have hp' : w.product p.name = some p := by rw [(product_mem hp).2]; exact hp
    simp only [record, hp]
    have := setAll_made hi.arts hp' hpe hma (!flag)
    exact ⟨hm.viaArt, hm.deps, this.keys, this.requested, this.tags⟩
  | tags prod =>
    obtain ⟨p, hp, hpe⟩ := hs.products prod hq
    have hp' : w.product p.name = some p := by rw [(product_mem hp).2]; exact hp
    simp only [record, hp]
    have h1 := setAll_made hi.arts hp' hpe hma (!flag)
    have := h1.put (new := { (look p.name (setAllArtifactTags p (!flag) r.arts)).getD {} with
                               enumerated := true }) hp' (setAll_tags hi.arts hp' hpe (!flag)) (h1.look _)
    exact ⟨hm.viaArt, hm.deps, this.keys, this.requested, this.tags⟩
  | tagged prod tag =>
    obtain ⟨p, hp, hpe⟩ := hs.products prod hq
    have hp' : w.product p.name = some p := by rw [(product_mem hp).2]; exact hp
    have hr : record w flag now (.tagged prod tag) r =
        { r with arts := taggedArts p (!flag) tag r.arts } := by
      simp only [record, hp, taggedArts]
      split <;> rfl
    rw [hr]
    have := tagged_made hi.arts hp' hpe hma (!flag) tag
    exact ⟨hm.viaArt, hm.deps, this.keys, this.requested, this.tags⟩

theorem run_made {w : World} (hw : w.WF) {now : Nat} : ∀ (prog : Prog) (s : Scope)
    (flags : String → Bool) (r : Rec), ScopeOk w now s → Inv w now r → Made w r →
    Made w (run w now prog s flags r).2 := by
  intro prog
  induction prog with
  | done n => intro s flags r _ _ hm; exact hm
  | ask q k ih =>
    intro s flags r hs hi hm
    unfold run
    by_cases hq : q.inScope s
    · rw [if_pos hq]
      exact ih _ _ _ _ (scope_extend hw hs hq) (record_inv hs hi hq) (record_made hs hi hq hm)
    · rw [if_neg hq]
      exact ih _ _ _ _ hs hi hm

/-! ## Merging -/

/-- Two records that can be merged without loss. -/
structure Mergeable (a b : Rec) : Prop where
  /-- What the first script used of an artifact, the second one used, too
  (see `C33_merge_loses_artifact_properties`). -/
  viaArt : ∀ path ps qs, (path, ps) ∈ a.viaArt → (path, qs) ∈ b.viaArt → ∀ p ∈ ps, p ∈ qs
  /-- The second script does not enumerate the tags of a product's artifacts if the first one
  has used the product's artifacts without doing so (see `C33_merge_loses_enumeration`). -/
  enumerated : ∀ n ra rb, (n, ra) ∈ a.arts → (n, rb) ∈ b.arts → rb.enumerated = true →
    ra.enumerated = true
  /-- The products whose artifacts were used had some
  (see `C33_merge_loses_requests_without_artifacts`). -/
  nonempty : ∀ n ra, (n, ra) ∈ a.arts → ra.allTags ≠ []

theorem mem_uniteProps {w : World} : ∀ (b a : List Property),
    (∀ q ∈ a, q.value = currentValue w q ∧ kindOk w q) →
    (∀ q ∈ b, q.value = currentValue w q ∧ kindOk w q) →
    ∀ p, p ∈ uniteProps a b ↔ (p ∈ a ∨ p ∈ b)
  | [], a, _, _, p => by simp [uniteProps]
  | q :: b, a, ha, hb, p => by
    have hq := hb q List.mem_cons_self
    have ha' : ∀ x ∈ insertProp q a, x.value = currentValue w x ∧ kindOk w x := by
      intro x hx
      rcases mem_insertProp hx with rfl | hx
      · exact hq
      · exact ha x hx
    show p ∈ uniteProps (insertProp q a) b ↔ _
    rw [mem_uniteProps b _ ha' (fun x hx => hb x (List.mem_cons_of_mem _ hx))]
    constructor
    · rintro (h | h)
      · rcases mem_insertProp h with rfl | h
        · exact Or.inr List.mem_cons_self
        · exact Or.inl h
      · exact Or.inr (List.mem_cons_of_mem _ h)
    · rintro (h | h)
      · exact Or.inl (mem_insertProp_old h)
      · rcases List.mem_cons.mp h with rfl | h
        · exact Or.inl (insertProp_mem ha hq)
        · exact Or.inr h

theorem merge_ok {w1 w2 : World} (hw2 : w2.WF) {na nb : Nat} (hn : na ≤ nb) {a b : Rec}
    (ia : Inv w1 na a) (ib : Inv w1 nb b) (ma : Made w1 a) (mb : Made w1 b) (hm : Mergeable a b) :
    Ok w2 (merge a b) ↔ (Ok w2 a ∧ Ok w2 b) := by
  have hprops := mem_uniteProps (w := w1) b.props a.props ia.props ib.props
  have hvk : Keys (merge a b).viaArt := keys_foldPut b.viaArt ma.viaArt
  have hvl := fun k => look_foldPut k b.viaArt a.viaArt mb.viaArt
  have hdl := fun k => look_foldPut k b.deps a.deps mb.deps
  have hal := fun k => look_unite k b.arts a.arts mb.arts
  have hak : Keys (merge a b).arts := keys_unite b.arts a.arts ma.arts
  -- one product's artifacts
  have harts : ∀ n ra rb, look n a.arts = some ra → look n b.arts = some rb → ∀ p2 : Product,
      ((∀ tag paths, (tag, paths) ∈ (ra.unite rb).requested →
          ∀ x, (∃ y ∈ p2.tagged tag, y.path = x) ↔ x ∈ paths) ∧
        ((ra.unite rb).enumerated = true → ∀ x, x ∈ p2.allTags ↔ x ∈ (ra.unite rb).allTags)) ↔
      (((∀ tag paths, (tag, paths) ∈ ra.requested →
          ∀ x, (∃ y ∈ p2.tagged tag, y.path = x) ↔ x ∈ paths) ∧
        (ra.enumerated = true → ∀ x, x ∈ p2.allTags ↔ x ∈ ra.allTags)) ∧
       ((∀ tag paths, (tag, paths) ∈ rb.requested →
          ∀ x, (∃ y ∈ p2.tagged tag, y.path = x) ↔ x ∈ paths) ∧
        (rb.enumerated = true → ∀ x, x ∈ p2.allTags ↔ x ∈ rb.allTags))) := by
    intro n ra rb hra hrb p2
    have hne := hm.nonempty n ra (mem_of_look hra)
    have hen := hm.enumerated n ra rb (mem_of_look hra) (mem_of_look hrb)
    obtain ⟨p, hp, ta⟩ := ma.tags n ra (mem_of_look hra)
    obtain ⟨p', hp', tb⟩ := mb.tags n rb (mem_of_look hrb)
    rw [hp] at hp'; cases hp'
    have hu : ra.unite rb = { ra with
        allTags := rb.allTags
        requested := rb.requested.foldl (fun acc kv => put kv.1 kv.2 acc) ra.requested } := by
      unfold PerProduct.unite
      rw [if_neg (by simpa using hne)]
    rw [hu]
    simp only
    have hkb := mb.requested n rb (mem_of_look hrb)
    have hka := ma.requested n ra (mem_of_look hra)
    have hlr := fun t => look_foldPut t rb.requested ra.requested hkb
    have hkr := keys_foldPut rb.requested hka
    obtain ⟨pa, hpa, _, _, _, va⟩ := ia.arts n ra (mem_of_look hra)
    obtain ⟨pb, hpb, _, _, _, vb⟩ := ib.arts n rb (mem_of_look hrb)
    rw [hp] at hpa hpb; cases hpa; cases hpb
    constructor
    · rintro ⟨h1, h2⟩
      have h1b : ∀ tag paths, (tag, paths) ∈ rb.requested →
          ∀ x, (∃ y ∈ p2.tagged tag, y.path = x) ↔ x ∈ paths := by
        intro tag paths hmem
        refine h1 tag paths (mem_of_look ?_)
        rw [hlr, hkb.look_of_mem hmem]; rfl
      refine ⟨⟨?_, fun he x => by rw [ta, ← tb]; exact h2 he x⟩, h1b, fun he x => ?_⟩
      · intro tag paths hmem x
        cases hb : look tag rb.requested with
        | none =>
          refine h1 tag paths (mem_of_look ?_) x
          rw [hlr, hb, hka.look_of_mem hmem]; rfl
        | some paths' =>
          rw [h1b tag paths' (mem_of_look hb) x, ← vb tag paths' (mem_of_look hb) x,
            va tag paths hmem x]
      · exact h2 (hen he) x
    · rintro ⟨⟨a1, a2⟩, b1, b2⟩
      refine ⟨?_, fun he x => by rw [a2 he x, ta, ← tb]⟩
      intro tag paths hmem
      have := hkr.look_of_mem hmem
      rw [hlr] at this
      cases hb : look tag rb.requested with
      | none => rw [hb] at this; exact a1 tag paths (mem_of_look this)
      | some v =>
        rw [hb] at this
        cases this
        exact b1 tag paths (mem_of_look hb)
  constructor
  · intro h
    have hb_arts : ArtsOk w2 b.arts := by
      intro n rb hmem
      have hlb := mb.arts.look_of_mem hmem
      have hl := hal n
      rw [hlb] at hl
      simp only at hl
      obtain ⟨p2, h1, h2, h3⟩ := h.arts n _ (mem_of_look hl)
      cases hla : look n a.arts with
      | none =>
        rw [hla] at h3
        have : (Option.getD (none : Option PerProduct) {}).unite rb = rb := rfl
        rw [this] at h3
        exact ⟨p2, h1, h2, h3⟩
      | some ra =>
        rw [hla] at h3
        exact ⟨p2, h1, h2, ((harts n ra rb hla hlb p2).mp h3).2⟩
    have ha_arts : ArtsOk w2 a.arts := by
      intro n ra hmem
      have hla := ma.arts.look_of_mem hmem
      have hl := hal n
      cases hlb : look n b.arts with
      | none =>
        rw [hlb] at hl
        exact h.arts n ra (mem_of_look (hl.trans hla))
      | some rb =>
        rw [hlb, hla] at hl
        obtain ⟨p2, h1, h2, h3⟩ := h.arts n _ (mem_of_look hl)
        exact ⟨p2, h1, h2, ((harts n ra rb hla hlb p2).mp h3).1⟩
    have hdeps : ∀ q ∈ w2.products, ∀ names, (look q.name a.deps = some names ∨
        look q.name b.deps = some names) → ∀ x, x ∈ depNames q ↔ x ∈ names := by
      intro q hq names hl
      have e : ∀ names, look q.name a.deps = some names → ∃ p, w1.product q.name = some p ∧
          names = depNames p := fun names hl => ia.deps _ _ (mem_of_look hl)
      have e' : ∀ names, look q.name b.deps = some names → ∃ p, w1.product q.name = some p ∧
          names = depNames p := fun names hl => ib.deps _ _ (mem_of_look hl)
      cases hb : look q.name b.deps with
      | some nb' =>
        have := h.deps q hq nb' ((hdl q.name).trans (by rw [hb]; rfl))
        rcases hl with hl | hl
        · obtain ⟨p, hp, rfl⟩ := e names hl
          obtain ⟨p', hp', rfl⟩ := e' nb' hb
          rw [hp] at hp'; cases hp'
          exact this
        · rw [hb] at hl; cases hl; exact this
      | none =>
        rcases hl with hl | hl
        · exact h.deps q hq names ((hdl q.name).trans (by rw [hb, hl]; rfl))
        · rw [hb] at hl; cases hl
    refine ⟨⟨?_, ?_, ?_, ?_, ha_arts, ?_⟩, ⟨?_, ?_, ?_, ?_, hb_arts, ?_⟩⟩
    · exact fun p hp => h.props p ((hprops p).mpr (Or.inl hp))
    · exact fun f t hf => h.imports f t (foldAdd_old b.imports _ hf)
    · intro path ps hmem p hp
      cases hb : look path b.viaArt with
      | none =>
        refine h.viaArt path ps (mem_of_look ?_) p hp
        exact (hvl path).trans (by rw [hb, ma.viaArt.look_of_mem hmem]; rfl)
      | some qs =>
        refine h.viaArt path qs (mem_of_look ?_) p (hm.viaArt path ps qs hmem (mem_of_look hb) p hp)
        exact (hvl path).trans (by rw [hb]; rfl)
    · exact fun q hq names hl => hdeps q hq names (Or.inl hl)
    · exact fun n k hk => h.exported n k (foldAdd_old b.exported _ hk)
    · exact fun p hp => h.props p ((hprops p).mpr (Or.inr hp))
    · intro f t hf
      obtain ⟨rfl, _⟩ := ib.imports f t hf
      obtain ⟨t', h1, h2⟩ := foldAdd_new b.imports a.imports hf
      obtain ⟨m, c, h3, h4⟩ := h.imports f t' h2
      refine ⟨m, c, h3, ?_⟩
      rcases h1 with h1 | h1
      · obtain ⟨rfl, _⟩ := ia.imports f t' h1; exact Nat.le_trans h4 hn
      · obtain ⟨rfl, _⟩ := ib.imports f t' h1; exact h4
    · intro path ps hmem
      refine h.viaArt path ps (mem_of_look ?_)
      exact (hvl path).trans (by rw [mb.viaArt.look_of_mem hmem]; rfl)
    · exact fun q hq names hl => hdeps q hq names (Or.inr hl)
    · intro n k hk
      obtain ⟨k', h1, h2⟩ := foldAdd_new b.exported a.exported hk
      have hkk : k' = k := by
        obtain ⟨p, hp, rfl⟩ := ib.exported n k hk
        rcases h1 with h1 | h1
        · obtain ⟨p', hp', rfl⟩ := ia.exported n k' h1; rw [hp] at hp'; cases hp'; rfl
        · obtain ⟨p', hp', rfl⟩ := ib.exported n k' h1; rw [hp] at hp'; cases hp'; rfl
      subst hkk
      exact h.exported n k' h2
  · rintro ⟨ha, hb⟩
    refine ⟨?_, ?_, ?_, ?_, ?_, ?_⟩
    · intro p hp
      rcases (hprops p).mp hp with h | h
      · exact ha.props p h
      · exact hb.props p h
    · intro f t hf
      rcases mem_foldAdd b.imports _ hf with h | h
      · exact ha.imports f t h
      · exact hb.imports f t h
    · intro path ps hmem p hp
      have := hvk.look_of_mem hmem
      rw [show look path (merge a b).viaArt = _ from hvl path] at this
      cases hl : look path b.viaArt with
      | none => rw [hl] at this; exact ha.viaArt path ps (mem_of_look this) p hp
      | some qs => rw [hl] at this; cases this; exact hb.viaArt path ps (mem_of_look hl) p hp
    · intro q hq names hl
      rw [show look q.name (merge a b).deps = _ from hdl q.name] at hl
      cases hlb : look q.name b.deps with
      | none => rw [hlb] at hl; exact ha.deps q hq names hl
      | some nb' => rw [hlb] at hl; cases hl; exact hb.deps q hq names hlb
    · intro n ru hmem
      have hlu := hak.look_of_mem hmem
      rw [show look n (merge a b).arts = _ from hal n] at hlu
      cases hlb : look n b.arts with
      | none => rw [hlb] at hlu; exact ha.arts n ru (mem_of_look hlu)
      | some rb =>
        rw [hlb] at hlu
        simp only [Option.some.injEq] at hlu
        subst hlu
        obtain ⟨p2, h1, h2, h3⟩ := hb.arts n rb (mem_of_look hlb)
        cases hla : look n a.arts with
        | none => exact ⟨p2, h1, h2, h3⟩
        | some ra =>
          obtain ⟨p3, g1, g2, g3⟩ := ha.arts n ra (mem_of_look hla)
          rw [h1] at g1; cases g1
          exact ⟨p2, h1, h2, (harts n ra rb hla hlb p2).mpr ⟨g3, h3⟩⟩
    · intro n k hk
      rcases mem_foldAdd b.exported _ hk with h | h
      · exact ha.exported n k h
      · exact hb.exported n k h

/-- **C33.** The merged record of two scripts, run one after the other in the same state of the
project, is out of date iff one of the two is. -/
theorem C33_merge_notices_both_partial {w1 w2 : World} (h1 : w1.WF) (h2 : w2.WF) {na nb : Nat}
    (hn : na ≤ nb) (p1 p2 : Prog) {s1 s2 : Scope} (f1 f2 : String → Bool)
    (hs1 : ScopeOk w1 na s1) (hs2 : ScopeOk w1 nb s2)
    (hm : Mergeable (run w1 na p1 s1 f1 {}).2 (run w1 nb p2 s2 f2 {}).2) :
    needsRerun w2 (merge (run w1 na p1 s1 f1 {}).2 (run w1 nb p2 s2 f2 {}).2) = true ↔
      needsRerun w2 (run w1 na p1 s1 f1 {}).2 = true ∨
      needsRerun w2 (run w1 nb p2 s2 f2 {}).2 = true := by
  have ia := run_inv h1 p1 s1 f1 {} hs1 (Inv.empty w1 na)
  have ib := run_inv h1 p2 s2 f2 {} hs2 (Inv.empty w1 nb)
  have ma := run_made h1 p1 s1 f1 {} hs1 (Inv.empty w1 na) (Made.empty w1)
  have mb := run_made h1 p2 s2 f2 {} hs2 (Inv.empty w1 nb) (Made.empty w1)
  have key := merge_ok h2 hn ia ib ma mb hm
  rw [← needsRerun_false_iff w2 h2, ← needsRerun_false_iff w2 h2, ← needsRerun_false_iff w2 h2] at key
  generalize needsRerun w2 (merge _ _) = x at *
  generalize needsRerun w2 (run w1 na p1 s1 f1 {}).2 = y at *
  generalize needsRerun w2 (run w1 nb p2 s2 f2 {}).2 = z at *
  cases x <;> cases y <;> cases z <;> simp_all

/-! ## Cases that meet the hypotheses -/

theorem probe_rec (w : World) (now : Nat) (q : Query) (x : Ans) (s : Scope) (flags : String → Bool)
    (hq : q.inScope s) : (run w now (probe q x) s flags {}).2 =
      record w ((q.mapAccess).elim true flags) now q {} := by
  rw [run_probe w now q x s flags {} hq]

/-- The first script uses an artifact and the map, the second a property and the map. -/
example : Mergeable (run (world app lib) 10 (probe (.tagged "app" "obj") .invalid) start
      (fun _ => false) {}).2
    (run (world app lib) 11 (probe (.tagged "app" "application") .invalid) start (fun _ => false) {}).2 := by
  rw [probe_rec _ _ _ _ _ _ (show Query.inScope start (.tagged "app" _) from rfl),
    probe_rec _ _ _ _ _ _ (show Query.inScope start (.tagged "app" _) from rfl)]
  refine ⟨?_, ?_, ?_⟩
  · intro path ps qs h
    have hrec : (record (world app lib) false 10 (.tagged "app" "obj") {}).viaArt = [] := by decide
    have h' : (path, ps) ∈ (record (world app lib) false 10 (.tagged "app" "obj") {}).viaArt := h
    rw [hrec] at h'; cases h'
  · intro n ra rb h1 h2 h3
    have : rb.enumerated = false := by
      have hrec : (record (world app lib) false 11 (.tagged "app" "application") {}).arts =
        [("app", ⟨["obj", "application"], [("application", ["/b/app"])], false⟩)] := by decide
      have h2' : (n, rb) ∈ (record (world app lib) false 11 (.tagged "app" "application") {}).arts := h2
      rw [hrec] at h2'
      simp at h2'
      rw [h2'.2]
    rw [this] at h3; cases h3
  · intro n ra h1
    have hrec : (record (world app lib) false 10 (.tagged "app" "obj") {}).arts =
      [("app", ⟨["obj", "application"], [("obj", ["/b/main.o"])], false⟩)] := by decide
    have h1' : (n, ra) ∈ (record (world app lib) false 10 (.tagged "app" "obj") {}).arts := h1
    rw [hrec] at h1'
    simp at h1'
    rw [h1'.2]
    simp

/-! ## What is lost -/

/-- Two scripts run in the state `w1`, one of which notices a change that the merged record does not
show. -/
structure LostByMerging (w1 w2 : World) (p1 p2 : Prog) (s : Scope) : Prop where
  wf1 : w1.WF
  wf2 : w2.WF
  scope : ScopeOk w1 10 s
  noticed : needsRerun w2 (run w1 10 p1 s (fun _ => false) {}).2 = true ∨
    needsRerun w2 (run w1 11 p2 s (fun _ => false) {}).2 = true
  lost : needsRerun w2 (merge (run w1 10 p1 s (fun _ => false) {}).2
    (run w1 11 p2 s (fun _ => false) {}).2) = false

theorem lost_probe {a l a2 l2 : Product} {q1 q2 : Query} {x1 x2 : Ans} {s : Scope}
    (wf1 : (world a l).WF) (wf2 : (world a2 l2).WF) (hs : ScopeOk (world a l) 10 s)
    (h1 : q1.inScope s) (h2 : q2.inScope s)
    (hn : needsRerun (world a2 l2) (record (world a l) ((q1.mapAccess).elim true (fun _ => false)) 10
        q1 {}) = true ∨
      needsRerun (world a2 l2) (record (world a l) ((q2.mapAccess).elim true (fun _ => false)) 11
        q2 {}) = true)
    (hl : needsRerun (world a2 l2) (merge
      (record (world a l) ((q1.mapAccess).elim true (fun _ => false)) 10 q1 {})
      (record (world a l) ((q2.mapAccess).elim true (fun _ => false)) 11 q2 {})) = false) :
    LostByMerging (world a l) (world a2 l2) (probe q1 x1) (probe q2 x2) s := by
  refine ⟨wf1, wf2, hs, ?_, ?_⟩
  · rw [probe_rec _ _ _ _ _ _ h1, probe_rec _ _ _ _ _ _ h2]; exact hn
  · rw [probe_rec _ _ _ _ _ _ h1, probe_rec _ _ _ _ _ _ h2]; exact hl

/-- `main.o` with another value of `cpp.optimization`. -/
def art2 : Art := { art "/b/main.o" ["obj"] with props := fun _ _ => .atom 2 }

/-- **C33 finding.** Two JavaScript commands of a rule use properties of the same input, the first
`cpp.optimization`, the second its file tags. After a change of `cpp.optimization` the commands are
not run again: the second record replaces the first (scriptengine.cpp 1151-1170, qttools.h 168-173). -/
theorem C33_merge_loses_artifact_properties :
    LostByMerging (world app lib)
      (world { app with arts := [art2, art "/b/app" ["application"]] } lib)
      (probe (.artProp "/b/main.o" "app" "cpp" "optimization") .invalid)
      (probe (.artTags "/b/main.o" "app") .invalid) start := by
  refine lost_probe wfA (world_wf _ lib rfl rfl (by decide) rfl rfl (by decide) (by decide)) startOk
    (show Query.inScope start (.artProp _ _ _ _) from ⟨rfl, rfl⟩)
    (show Query.inScope start (.artTags _ _) from ⟨rfl, rfl⟩) (Or.inl ?_) ?_ <;> decide

/-- **C33 finding.** The first command uses `product.artifacts["obj"]`, the second enumerates
`product.artifacts`. A new tag is not noticed: that the artifacts were enumerated is not merged
(requestedartifacts.cpp 175-185). -/
theorem C33_merge_loses_enumeration :
    LostByMerging (world app lib)
      (world { app with arts := app.arts ++ [art "/b/app.map" ["map"]] } lib)
      (probe (.tagged "app" "obj") .invalid) (probe (.tags "app") .invalid) start := by
  refine lost_probe wfA (world_wf _ lib rfl rfl (by decide) rfl rfl (by decide) (by decide)) startOk
    (show Query.inScope start (.tagged "app" "obj") from rfl)
    (show Query.inScope start (.tags "app") from rfl) (Or.inr ?_) ?_ <;> decide

def emptyLib : Product := { lib with arts := [] }

/-- The script of a rule that has got hold of `lib`. -/
def start3 : Scope := { start with products := fun n => n = "app" ∨ n = "lib" }

theorem wfE : (world app emptyLib).WF :=
  world_wf app emptyLib rfl rfl (by decide) rfl rfl (by decide) (by decide)

/-- **C33 finding.** Two commands ask a dependency that has no artifacts for two tags. A later
artifact with the first tag is not noticed (requestedartifacts.cpp 175-185: the first record
is taken for an unused one). -/
theorem C33_merge_loses_requests_without_artifacts :
    LostByMerging (world app emptyLib) (world app lib)
      (probe (.tagged "lib" "staticlibrary") .invalid)
      (probe (.tagged "lib" "dynamiclibrary") .invalid) start3 := by
  refine lost_probe wfE wfA ?_
    (show Query.inScope start3 (.tagged "lib" _) from Or.inr rfl)
    (show Query.inScope start3 (.tagged "lib" _) from Or.inr rfl) (Or.inl ?_) ?_
  · refine ⟨?_, ?_, ?_, fun n h => h.elim⟩
    · rintro n (rfl | rfl)
      · exact ⟨app, world_app _ _ rfl, rfl⟩
      · exact ⟨emptyLib, world_lib _ _ rfl rfl, rfl⟩
    · rintro path p ⟨rfl, rfl⟩; exact ⟨Or.inl rfl, art "/b/main.o" ["obj"], rfl⟩
    · rintro f rfl; exact ⟨5, 1, by simp [world], by decide⟩
  · decide
  · decide

end Verif.Track
