import Verif.Track.Lem
namespace Verif.Track

theorem look_put_self {β : Type} (k : String) (v : β) : ∀ (l : List (String × β)),
    look k (put k v l) = some v
  | [] => by simp [put, look]
  | (k', v') :: l => by
    unfold put
    by_cases hk : k' = k
    · rw [if_pos hk]; simp [look]
    · rw [if_neg hk]; simp [look, hk, look_put_self k v l]

theorem look_put_ne {β : Type} {k n : String} (v : β) (h : n ≠ k) : ∀ (l : List (String × β)),
    look n (put k v l) = look n l
  | [] => by simp [put, look, Ne.symm h]
  | (k', v') :: l => by
    unfold put
    by_cases hk : k' = k
    · rw [if_pos hk]; subst hk; simp [look, Ne.symm h]
    · rw [if_neg hk]
      by_cases hn : k' = n
      · simp [look, hn]
      · simp [look, hn, look_put_ne v h l]

/-! ## The artifact maps -/

def entryInv (p : Product) (ra : PerProduct) : Prop :=
  p.enabled = true ∧ (ra.allTags = [] ∨ ra.allTags = p.allTags) ∧
  (ra.enumerated = true → ra.allTags = p.allTags) ∧
  ∀ tag paths, (tag, paths) ∈ ra.requested → ∀ x, (∃ a ∈ p.tagged tag, a.path = x) ↔ x ∈ paths

def ArtsInv (w : World) (l : List (String × PerProduct)) : Prop :=
  ∀ n ra, (n, ra) ∈ l → ∃ p, w.product n = some p ∧ entryInv p ra

def ArtsOk (w : World) (l : List (String × PerProduct)) : Prop :=
  ∀ n ra, (n, ra) ∈ l → ∃ p, w.product n = some p ∧ p.enabled = true ∧
    (∀ tag paths, (tag, paths) ∈ ra.requested → ∀ x, (∃ a ∈ p.tagged tag, a.path = x) ↔ x ∈ paths) ∧
    (ra.enumerated = true → ∀ x, x ∈ p.allTags ↔ x ∈ ra.allTags)

/-- Nothing of `old` is lost in `new`. -/
def Ext (old new : PerProduct) : Prop :=
  (∀ tag paths, (tag, paths) ∈ old.requested → ∃ paths', (tag, paths') ∈ new.requested ∧
    ∀ x, x ∈ paths ↔ x ∈ paths') ∧
  (old.enumerated = true → new.enumerated = true ∧ ∀ x, x ∈ old.allTags ↔ x ∈ new.allTags)

theorem ArtsOk.of_put {w : World} {n : String} {new : PerProduct} {l : List (String × PerProduct)}
    (h : ArtsOk w (put n new l)) (he : ∀ old, look n l = some old → Ext old new) : ArtsOk w l := by
  intro m ra hm
  rcases mem_put_old (k := n) (v := new) hm with h1 | ⟨h1, h2⟩
  · exact h m ra h1
  · subst h1
    obtain ⟨p, hp1, hp2, hp3, hp4⟩ := h m new (mem_put_self m new l)
    obtain ⟨e1, e2⟩ := he ra h2
    refine ⟨p, hp1, hp2, ?_, ?_⟩
    · intro tag paths hmem x
      obtain ⟨paths', g1, g2⟩ := e1 tag paths hmem
      rw [hp3 tag paths' g1 x, g2 x]
    · intro hen x
      obtain ⟨g1, g2⟩ := e2 hen
      rw [hp4 g1 x, g2 x]

theorem ArtsInv.put {w : World} {n : String} {new : PerProduct} {l : List (String × PerProduct)}
    (h : ArtsInv w l) {p : Product} (hp : w.product n = some p) (he : entryInv p new) :
    ArtsInv w (Track.put n new l) := by
  intro m ra hm
  rcases mem_put hm with h1 | h1
  · cases h1; exact ⟨p, hp, he⟩
  · exact h m ra h1

theorem entryInv_look {w : World} {l : List (String × PerProduct)} (h : ArtsInv w l) {p : Product}
    {n : String} (hp : w.product n = some p) (he : p.enabled = true) :
    entryInv p ((look n l).getD {}) := by
  cases hl : look n l with
  | none => 
    refine ⟨he, Or.inl rfl, fun hh => ?_, fun _ _ hh => ?_⟩
    · exact absurd hh (by simp)
    · exact absurd hh (by simp)
  | some ra =>
    obtain ⟨q, hq, hinv⟩ := h n ra (mem_of_look hl)
    rw [hp] at hq; cases hq; exact hinv

section
variable {w : World} {p : Product} {l : List (String × PerProduct)} (hi : ArtsInv w l)
  (hp : w.product p.name = some p) (hen : p.enabled = true)
include hi hp hen

theorem setAll_inv (force : Bool) : ArtsInv w (setAllArtifactTags p force l) := by
  have he := entryInv_look hi hp hen
  unfold setAllArtifactTags
  simp only
  split
  · exact hi.put hp he
  · exact hi.put hp ⟨hen, Or.inr rfl, fun _ => rfl, he.2.2.2⟩

theorem setAll_tags (force : Bool) :
    ((look p.name (setAllArtifactTags p force l)).getD {}).allTags = p.allTags := by
  have he := entryInv_look hi hp hen
  unfold setAllArtifactTags
  simp only
  split
  · rename_i h
    rw [look_put_self]
    simp at h
    rcases he.2.1 with h1 | h1
    · exact absurd h1 h.1
    · exact h1
  · rw [look_put_self]; rfl

theorem setAll_ok {force : Bool} {w2 : World} (h : ArtsOk w2 (setAllArtifactTags p force l)) :
    ArtsOk w2 l := by
  have he := entryInv_look hi hp hen
  unfold setAllArtifactTags at h
  simp only at h
  split at h
  · refine h.of_put (fun old ho => ?_)
    rw [ho]
    exact ⟨fun tag paths hm => ⟨paths, hm, fun _ => Iff.rfl⟩, fun hh => ⟨hh, fun _ => Iff.rfl⟩⟩
  · refine h.of_put (fun old ho => ?_)
    rw [ho] at he ⊢
    exact ⟨fun tag paths hm => ⟨paths, hm, fun _ => Iff.rfl⟩,
      fun hh => ⟨hh, fun x => by
        have := he.2.2.1 hh
        simp only [Option.getD_some] at this
        simp [this]⟩⟩

theorem setTag_entry (tag : String) (add : List String)
    (hadd : ∀ x, (∃ a ∈ p.tagged tag, a.path = x) ↔ x ∈ add) (ra : PerProduct) (he : entryInv p ra) :
    (∀ x, (∃ a ∈ p.tagged tag, a.path = x) ↔ x ∈ (look tag ra.requested).getD [] ++ add) ∧
    entryInv p { ra with requested := put tag ((look tag ra.requested).getD [] ++ add) ra.requested } ∧
    Ext ra { ra with requested := put tag ((look tag ra.requested).getD [] ++ add) ra.requested } := by
  have hnew : ∀ x, (∃ a ∈ p.tagged tag, a.path = x) ↔ x ∈ (look tag ra.requested).getD [] ++ add := by
    intro x
    rw [List.mem_append, ← hadd x]
    constructor
    · exact Or.inr
    · rintro (h | h)
      · cases hl : look tag ra.requested with
        | none => rw [hl] at h; cases h
        | some old =>
          rw [hl] at h
          exact (he.2.2.2 tag old (mem_of_look hl) x).mpr h
      · exact h
  refine ⟨hnew, ⟨he.1, he.2.1, he.2.2.1, ?_⟩, ?_, fun hh => ⟨hh, fun _ => Iff.rfl⟩⟩
  · intro t paths hm
    rcases mem_put hm with h | h
    · cases h; exact hnew
    · exact he.2.2.2 t paths h
  · intro t paths hm
    rcases mem_put_old (k := tag) (v := (look tag ra.requested).getD [] ++ add) hm with h | ⟨h1, h2⟩
    · exact ⟨paths, h, fun _ => Iff.rfl⟩
    · subst h1
      refine ⟨_, mem_put_self _ _ _, fun x => ?_⟩
      rw [← hnew x]
      exact ((he.2.2.2 t paths hm) x).symm

end

def taggedArts (p : Product) (force : Bool) (tag : String) (l : List (String × PerProduct)) :
    List (String × PerProduct) :=
  if (p.tagged tag).isEmpty then setNonExistingTagRequested p tag (setAllArtifactTags p force l)
  else setArtifactsForTag p tag (setAllArtifactTags p force l)

theorem getTag_none {p : Product} {tag : String} (h : (p.tagged tag).isEmpty = true) (x : String) :
    (∃ a ∈ p.tagged tag, a.path = x) ↔ x ∈ ([] : List String) := by
  have : p.tagged tag = [] := by simpa using h
  simp [this]

/-- `product.artifacts[tag]`, all cases. -/
theorem tagged_step {w : World} {p : Product} {l : List (String × PerProduct)} (hi : ArtsInv w l)
    (hp : w.product p.name = some p) (hen : p.enabled = true) (force : Bool) (tag : String) :
    let l' := taggedArts p force tag l
    ArtsInv w l' ∧ ∀ w2, ArtsOk w2 l' → ArtsOk w2 l ∧
      ∃ p2, w2.product p.name = some p2 ∧
        ∀ x, (∃ a ∈ p2.tagged tag, a.path = x) ↔ (∃ a ∈ p.tagged tag, a.path = x) := by
  have hi1 := setAll_inv hi hp hen force
  have he := entryInv_look hi1 hp hen
  have key : ∀ add : List String, (∀ x, (∃ a ∈ p.tagged tag, a.path = x) ↔ x ∈ add) →
      let ra := (look p.name (setAllArtifactTags p force l)).getD {}
      let rq := put tag ((look tag ra.requested).getD [] ++ add) ra.requested
      let l' := put p.name { ra with requested := rq } (setAllArtifactTags p force l)
      ArtsInv w l' ∧ ∀ w2, ArtsOk w2 l' → ArtsOk w2 l ∧
        ∃ p2, w2.product p.name = some p2 ∧
          ∀ x, (∃ a ∈ p2.tagged tag, a.path = x) ↔ (∃ a ∈ p.tagged tag, a.path = x) := by
    intro add hadd ra rq l'
    obtain ⟨s1, s2, s3⟩ := setTag_entry hi hp hen tag add hadd ra he
    refine ⟨hi1.put hp s2, fun w2 hok => ⟨?_, ?_⟩⟩
    · refine setAll_ok hi hp hen (hok.of_put (fun old ho => ?_))
      have : ra = old := by show (look p.name (setAllArtifactTags p force l)).getD {} = old; rw [ho]; rfl
      subst this; exact s3
    · obtain ⟨p2, q1, q2, q3, q4⟩ := hok _ _ (mem_put_self _ _ _)
      exact ⟨p2, q1, fun x => by rw [q3 tag _ (mem_put_self _ _ _) x, s1 x]⟩
  unfold taggedArts
  by_cases hemp : (p.tagged tag).isEmpty = true
  · simp only [hemp, if_true]
    have := key [] (getTag_none hemp)
    simp only [List.append_nil] at this
    exact this
  · simp only [hemp]
    have := key ((p.tagged tag).map (·.path)) (fun x => by simp)
    exact this

/-- The keys of `product.artifacts`. -/
theorem tags_step {w : World} {p : Product} {l : List (String × PerProduct)} (hi : ArtsInv w l)
    (hp : w.product p.name = some p) (hen : p.enabled = true) (force : Bool) :
    let l' := setArtifactsEnumerated p (setAllArtifactTags p force l)
    ArtsInv w l' ∧ ∀ w2, ArtsOk w2 l' → ArtsOk w2 l ∧
      ∃ p2, w2.product p.name = some p2 ∧ ∀ x, x ∈ p2.allTags ↔ x ∈ p.allTags := by
  have hi1 := setAll_inv hi hp hen force
  have he := entryInv_look hi1 hp hen
  have ht := setAll_tags hi hp hen force
  refine ⟨hi1.put hp ⟨hen, Or.inr ht, fun _ => ht, he.2.2.2⟩, fun w2 hok => ⟨?_, ?_⟩⟩
  · refine setAll_ok hi hp hen (ArtsOk.of_put hok (fun old ho => ?_))
    rw [ho]
    exact ⟨fun tag paths hm => ⟨paths, hm, fun _ => Iff.rfl⟩, fun hh => ⟨rfl, fun _ => Iff.rfl⟩⟩
  · obtain ⟨p2, q1, q2, q3, q4⟩ := hok _ _ (mem_put_self _ _ _)
    exact ⟨p2, q1, fun x => by rw [q4 rfl x]; show _ ∈ PerProduct.allTags _ ↔ _; rw [ht]⟩

/-! ## Properties -/

theorem insertProp_mem {w : World} {l : List Property} {p : Property}
    (hl : ∀ q ∈ l, q.value = currentValue w q ∧ kindOk w q)
    (hp : p.value = currentValue w p ∧ kindOk w p) : p ∈ insertProp p l := by
  rcases insertProp_same (p := p) (l := l) with h | ⟨q, hq, hs, he⟩
  · exact h
  · rw [he, same_eq hs hp (hl q hq)]; exact hq

def viaFresh (w : World) (path : String) (p : Property) : Prop :=
  ∃ a, w.artifact path p.owner = some a ∧
    ((p.kind = .inModule ∧ ∃ m, p.mname = .mod m ∧ p.value = a.props m p.key) ∨
     (p.kind = .inArtifact ∧ p.mname = .none ∧ p.value = .strs a.tags))

theorem via_same_eq {w : World} {path : String} {p q : Property} (hs : p.same q = true)
    (hp : viaFresh w path p) (hq : viaFresh w path q) : p = q := by
  obtain ⟨h1, h2, h3⟩ := same_iff.mp hs
  obtain ⟨o, m, k, v, kd⟩ := p
  obtain ⟨o', m', k', v', kd'⟩ := q
  simp only at h1 h2 h3
  subst h1 h2 h3
  obtain ⟨a, ha, hc⟩ := hp
  obtain ⟨b, hb, hd⟩ := hq
  simp only at ha hb hc hd
  rw [ha] at hb; cases hb
  rcases hc with ⟨c1, m1, c2, c3⟩ | ⟨c1, c2, c3⟩
  · rcases hd with ⟨d1, m2, d2, d3⟩ | ⟨d1, d2, d3⟩
    · rw [c2] at d2; cases d2
      rw [c1, c3, d1, d3]
    · rw [c2] at d2; cases d2
  · rcases hd with ⟨d1, m2, d2, d3⟩ | ⟨d1, d2, d3⟩
    · rw [c2] at d2; cases d2
    · rw [c1, c3, d1, d3]

theorem via_step {w : World} {l : List (String × List Property)}
    (hl : ∀ path ps, (path, ps) ∈ l → ∀ p ∈ ps, viaFresh w path p) {path : String} {p : Property}
    (hp : viaFresh w path p) :
    let l' := put path (insertProp p ((look path l).getD [])) l
    (∀ path ps, (path, ps) ∈ l' → ∀ p ∈ ps, viaFresh w path p) ∧
    ∀ w2, (∀ path ps, (path, ps) ∈ l' → ∀ p ∈ ps, viaArtOk w2 path p = true) →
      (∀ path ps, (path, ps) ∈ l → ∀ p ∈ ps, viaArtOk w2 path p = true) ∧
      viaArtOk w2 path p = true := by
  have hold : ∀ q ∈ (look path l).getD [], viaFresh w path q := by
    intro q hq
    cases hk : look path l with
    | none => rw [hk] at hq; cases hq
    | some ps => rw [hk] at hq; exact hl path ps (mem_of_look hk) q hq
  refine ⟨?_, fun w2 hok => ⟨?_, ?_⟩⟩
  · intro path' ps hm q hq
    rcases mem_put hm with h | h
    · cases h
      rcases mem_insertProp hq with rfl | hq
      · exact hp
      · exact hold q hq
    · exact hl path' ps h q hq
  · intro path' ps hm q hq
    rcases mem_put_old (k := path) (v := insertProp p ((look path l).getD [])) hm with h | ⟨h1, h2⟩
    · exact hok path' ps h q hq
    · subst h1
      refine hok _ _ (mem_put_self _ _ _) q (mem_insertProp_old ?_)
      rw [h2]; exact hq
  · refine hok _ _ (mem_put_self _ _ _) p ?_
    rcases insertProp_same (p := p) (l := (look path l).getD []) with h | ⟨q, hq, hs, he⟩
    · exact h
    · rw [he, via_same_eq hs hp (hold q hq)]; exact hq

/-! ## One access -/

def addNew {β : Type} (k : String) (v : β) (l : List (String × β)) : List (String × β) :=
  if (look k l).isSome then l else l ++ [(k, v)]

theorem ext_set {f g : String → Prop} (h : ∀ x, f x ↔ g x) : Ans.set f = Ans.set g := by
  have : f = g := funext (fun x => propext (h x))
  rw [this]

theorem props_step {w1 : World} {now : Nat} {r : Rec} (hi : Inv w1 now r)
    {p : Property} (hp : p.value = currentValue w1 p ∧ kindOk w1 p) :
    Inv w1 now { r with props := insertProp p r.props } ∧
    ∀ w2, Ok w2 { r with props := insertProp p r.props } →
      Ok w2 r ∧ currentValue w2 p = currentValue w1 p := by
  refine ⟨⟨?_, hi.viaArt, hi.deps, hi.arts, hi.imports, hi.exported⟩, fun w2 hok =>
    ⟨⟨fun q hq => hok.props q (mem_insertProp_old hq), hok.imports, hok.viaArt, hok.deps, hok.arts,
      hok.exported⟩, ?_⟩⟩
  · intro q hq
    rcases mem_insertProp hq with rfl | hq
    · exact hp
    · exact hi.props q hq
  · rw [← hp.1, hok.props p (insertProp_mem hi.props hp)]

theorem record_step {w1 : World} {now : Nat} {s : Scope} {r : Rec} {flag : Bool} {q : Query}
    (hs : ScopeOk w1 now s) (hi : Inv w1 now r) (hq : q.inScope s)
    (hnm : ∀ p m t, q ≠ .moduleTagged p m t) :
    Inv w1 now (record w1 flag now q r) ∧
    ∀ w2, w2.WF → Ok w2 (record w1 flag now q r) →
      Ok w2 r ∧ (Comparable w1 w2 now → ScopeLater w2 s → w2.answer q = w1.answer q) := by
  cases q with
  | modProp prod m key =>
    obtain ⟨a, b⟩ := props_step hi (p := ⟨prod, .mod m, key,
      (w1.product prod).elim .undef (·.mprops m key), .inModule⟩) ⟨rfl, trivial⟩
    refine ⟨a, fun w2 _ hok => ⟨(b w2 hok).1, fun _ _ => ?_⟩⟩
    exact congrArg Ans.val (b w2 hok).2
  | prodProp prod key =>
    obtain ⟨p, hp, hpe⟩ := hs.products prod hq
    cases hv : p.pprops key with
    | none =>
      have hr : record w1 flag now (.prodProp prod key) r = r := by
        simp [record, hp, hv]
      rw [hr]
      refine ⟨hi, fun w2 _ hok => ⟨hok, fun hc hl => ?_⟩⟩
      obtain ⟨p2, hp2, _⟩ := hl prod hq
      have := hc.pprops prod p p2 key hp hp2 hv
      simp [World.answer, hp, hp2, hv, this]
    | some v =>
      have hr : record w1 flag now (.prodProp prod key) r =
          { r with props := insertProp ⟨prod, .none, key, v, .inProduct⟩ r.props } := by
        simp [record, hp, hv]
      rw [hr]
      obtain ⟨a, b⟩ := props_step hi (p := ⟨prod, .none, key, v, .inProduct⟩)
        ⟨by simp [currentValue, hp, hv], by show w1.product prod ≠ none; rw [hp]; simp⟩
      refine ⟨a, fun w2 _ hok => ⟨(b w2 hok).1, fun _ _ => ?_⟩⟩
      exact congrArg Ans.val (b w2 hok).2
  | projProp proj key =>
    obtain ⟨a, b⟩ := props_step hi (p := ⟨proj, .none, key,
      (w1.project proj).elim .undef (·.props key), .inProject⟩) ⟨rfl, hs.projects proj hq⟩
    refine ⟨a, fun w2 _ hok => ⟨(b w2 hok).1, fun _ _ => ?_⟩⟩
    exact congrArg Ans.val (b w2 hok).2
  | param prod dep m key =>
    obtain ⟨a, b⟩ := props_step hi (p := ⟨prod, .param dep m, key,
      (w1.product prod).elim .undef (·.params dep m key), .inParameters⟩) ⟨rfl, trivial⟩
    refine ⟨a, fun w2 _ hok => ⟨(b w2 hok).1, fun _ _ => ?_⟩⟩
    exact congrArg Ans.val (b w2 hok).2
  | artProp path prod m key =>
    obtain ⟨_, a, ha⟩ := hs.arts path prod hq
    have hf : viaFresh w1 path ⟨prod, .mod m, key,
        (w1.artifact path prod).elim .undef (·.props m key), .inModule⟩ :=
      ⟨a, ha, Or.inl ⟨rfl, m, rfl, by rw [ha]; rfl⟩⟩
    obtain ⟨c1, c2⟩ := via_step hi.viaArt hf
    refine ⟨⟨hi.props, c1, hi.deps, hi.arts, hi.imports, hi.exported⟩, fun w2 _ hok => ?_⟩
    obtain ⟨d1, d2⟩ := c2 w2 hok.viaArt
    refine ⟨⟨hok.props, hok.imports, d1, hok.deps, hok.arts, hok.exported⟩, fun _ _ => ?_⟩
    unfold viaArtOk at d2
    simp only at d2
    cases ha2 : w2.artifact path prod with
    | none => rw [ha2] at d2; cases d2
    | some a2 =>
      rw [ha2] at d2
      simp only [beq_iff_eq] at d2
      simp only [World.answer, ha2, Option.elim_some]
      rw [d2]
  | artTags path prod =>
    obtain ⟨_, a, ha⟩ := hs.arts path prod hq
    have hf : viaFresh w1 path ⟨prod, .none, "fileTags",
        .strs ((w1.artifact path prod).elim [] (·.tags)), .inArtifact⟩ :=
      ⟨a, ha, Or.inr ⟨rfl, rfl, by rw [ha]; rfl⟩⟩
    obtain ⟨c1, c2⟩ := via_step hi.viaArt hf
    refine ⟨⟨hi.props, c1, hi.deps, hi.arts, hi.imports, hi.exported⟩, fun w2 _ hok => ?_⟩
    obtain ⟨d1, d2⟩ := c2 w2 hok.viaArt
    refine ⟨⟨hok.props, hok.imports, d1, hok.deps, hok.arts, hok.exported⟩, fun _ _ => ?_⟩
    unfold viaArtOk at d2
    simp only at d2
    cases ha2 : w2.artifact path prod with
    | none => rw [ha2] at d2; cases d2
    | some a2 =>
      rw [ha2] at d2
      simp only [ha, Option.elim_some] at d2
      simp only [World.answer, ha, ha2]
      refine ext_set (fun t => ?_)
      have := sameSet_iff.mp d2 t
      constructor
      · rintro ⟨b, hb, ht⟩; cases hb; exact ⟨a, rfl, this.mp ht⟩
      · rintro ⟨b, hb, ht⟩; cases hb; exact ⟨a2, rfl, this.mpr ht⟩
  | tagged prod tag =>
    obtain ⟨p, hp, hpe⟩ := hs.products prod hq
    have hpn := (product_mem hp).2
    have hp' : w1.product p.name = some p := by rw [hpn]; exact hp
    obtain ⟨c1, c2⟩ := tagged_step hi.arts hp' hpe (!flag) tag
    have hr : record w1 flag now (.tagged prod tag) r =
        { r with arts := taggedArts p (!flag) tag r.arts } := by
      simp only [record, hp, taggedArts]
      split <;> rfl
    rw [hr]
    refine ⟨⟨hi.props, hi.viaArt, hi.deps, c1, hi.imports, hi.exported⟩, fun w2 _ hok => ?_⟩
    obtain ⟨d1, p2, d2, d3⟩ := c2 w2 hok.arts
    rw [hpn] at d2
    refine ⟨⟨hok.props, hok.imports, hok.viaArt, hok.deps, d1, hok.exported⟩, fun hc _ => ?_⟩
    simp only [World.answer]
    refine ext_set (fun f => ?_)
    have mem : ∀ (p : Product) (a : Art), a ∈ p.tagged tag → a ∈ p.arts := fun p a h =>
      (List.mem_filter.mp h).1
    constructor
    · rintro ⟨q2, hq2, a2, h1, h2, h3⟩
      rw [d2] at hq2; cases hq2
      obtain ⟨a, g1, g2⟩ := (d3 f).mp ⟨a2, h1, h3⟩
      exact ⟨p, hp, a, g1, (hc.target prod p p2 hp d2 a (mem p a g1) a2 (mem p2 a2 h1)
        (by rw [g2, h3])).mpr h2, g2⟩
    · rintro ⟨q1, hq1, a, h1, h2, h3⟩
      rw [hp] at hq1; cases hq1
      obtain ⟨a2, g1, g2⟩ := (d3 f).mpr ⟨a, h1, h3⟩
      exact ⟨p2, d2, a2, g1, (hc.target prod p p2 hp d2 a (mem p a h1) a2 (mem p2 a2 g1)
        (by rw [g2, h3])).mp h2, g2⟩
  | tags prod =>
    obtain ⟨p, hp, hpe⟩ := hs.products prod hq
    have hpn := (product_mem hp).2
    have hp' : w1.product p.name = some p := by rw [hpn]; exact hp
    obtain ⟨c1, c2⟩ := tags_step hi.arts hp' hpe (!flag)
    have hr : record w1 flag now (.tags prod) r =
        { r with arts := setArtifactsEnumerated p (setAllArtifactTags p (!flag) r.arts) } := by
      simp only [record, hp]
    rw [hr]
    refine ⟨⟨hi.props, hi.viaArt, hi.deps, c1, hi.imports, hi.exported⟩, fun w2 _ hok => ?_⟩
    obtain ⟨d1, p2, d2, d3⟩ := c2 w2 hok.arts
    rw [hpn] at d2
    refine ⟨⟨hok.props, hok.imports, hok.viaArt, hok.deps, d1, hok.exported⟩, fun hc _ => ?_⟩
    simp only [World.answer]
    refine ext_set (fun t => ?_)
    have mem : ∀ (p : Product) (a : Art), a ∈ p.tagged t → t ∈ p.allTags := by
      intro p a h
      obtain ⟨h1, h2⟩ := List.mem_filter.mp h
      exact List.mem_flatMap.mpr ⟨a, h1, by simpa using h2⟩
    constructor
    · rintro ⟨q2, hq2, a2, h1, h2⟩
      rw [d2] at hq2; cases hq2
      exact ⟨p, hp, hc.plain w1 (Or.inl rfl) p (product_mem hp).1 t ((d3 t).mp (mem p2 a2 h1))⟩
    · rintro ⟨q1, hq1, a, h1, h2⟩
      rw [hp] at hq1; cases hq1
      exact ⟨p2, d2, hc.plain w2 (Or.inr rfl) p2 (product_mem d2).1 t ((d3 t).mpr (mem p a h1))⟩
  | moduleTagged prod m tag => exact absurd rfl (hnm prod m tag)
  | deps prod =>
    obtain ⟨p, hp, hpe⟩ := hs.products prod hq
    have hr : record w1 flag now (.deps prod) r = { r with deps := put prod (depNames p) r.deps } := by
      simp only [record, hp]
    rw [hr]
    refine ⟨⟨hi.props, hi.viaArt, ?_, hi.arts, hi.imports, hi.exported⟩, fun w2 hw2 hok => ?_⟩
    · intro n names hm
      rcases mem_put hm with h | h
      · cases h; exact ⟨p, hp, rfl⟩
      · exact hi.deps n names h
    · have hkey : ∀ p2, w2.product prod = some p2 → ∀ x, x ∈ depNames p2 ↔ x ∈ depNames p :=
        fun p2 hp2 => hok.deps p2 (product_mem hp2).1 _
          (by rw [(product_mem hp2).2]; exact look_put_self _ _ _)
      refine ⟨⟨hok.props, hok.imports, hok.viaArt, ?_, hok.arts, hok.exported⟩, fun hc hl => ?_⟩
      · intro q hq names hlk
        by_cases hn : q.name = prod
        · obtain ⟨p', hp', rfl⟩ := hi.deps _ _ (mem_of_look hlk)
          rw [hn, hp] at hp'; cases hp'
          have hqq := hw2.unique q hq
          rw [hn] at hqq
          exact hkey q hqq
        · refine hok.deps q hq names ?_
          simp only [look_put_ne _ hn]; exact hlk
      · obtain ⟨p2, hp2, _⟩ := hl prod hq
        have hkey := hkey p2 hp2
        obtain ⟨n1, n2⟩ := hc.names prod p p2 hp hp2
        have hd : ∀ x, x ∈ p2.deps ↔ x ∈ p.deps := by
          intro x
          have := hkey x
          simp only [depNames, List.mem_append] at this
          constructor
          · intro hx
            rcases this.mp (Or.inl hx) with h | h
            · exact h
            · exact absurd hx (n2 x h)
          · intro hx
            rcases this.mpr (Or.inl hx) with h | h
            · exact h
            · exact absurd h (n1 x hx)
        have hm : ∀ x, x ∈ p2.modules ↔ x ∈ p.modules := by
          intro x
          have := hkey x
          simp only [depNames, List.mem_append] at this
          constructor
          · intro hx
            rcases this.mp (Or.inr hx) with h | h
            · exact absurd hx (n1 x h)
            · exact h
          · intro hx
            rcases this.mpr (Or.inr hx) with h | h
            · exact absurd h (n2 x hx)
            · exact h
        simp only [World.answer]
        congr 1
        · funext x
          refine propext ⟨?_, ?_⟩
          · rintro ⟨q, hq, hx⟩; rw [hp2] at hq; cases hq; exact ⟨p, hp, (hd x).mp hx⟩
          · rintro ⟨q, hq, hx⟩; rw [hp] at hq; cases hq; exact ⟨p2, hp2, (hd x).mpr hx⟩
        · funext x
          refine propext ⟨?_, ?_⟩
          · rintro ⟨q, hq, hx⟩; rw [hp2] at hq; cases hq; exact ⟨p, hp, (hm x).mp hx⟩
          · rintro ⟨q, hq, hx⟩; rw [hp] at hq; cases hq; exact ⟨p2, hp2, (hm x).mpr hx⟩
  | exported prod =>
    obtain ⟨p, hp, hpe⟩ := hs.products prod hq
    have hr : record w1 flag now (.exported prod) r = { r with exported := addNew prod p.exported r.exported } := by
      simp only [record, hp, addNew]
    rw [hr]
    have hmem : (prod, p.exported) ∈ addNew prod p.exported r.exported := by
      unfold addNew
      split
      · rename_i h
        obtain ⟨k, hk⟩ := Option.isSome_iff_exists.mp h
        obtain ⟨p', hp', rfl⟩ := hi.exported _ _ (mem_of_look hk)
        rw [hp] at hp'; cases hp'
        exact mem_of_look hk
      · simp
    refine ⟨⟨hi.props, hi.viaArt, hi.deps, hi.arts, hi.imports, ?_⟩, fun w2 _ hok => ?_⟩
    · intro n k hm
      simp only [addNew] at hm
      split at hm
      · exact hi.exported n k hm
      · rcases List.mem_append.mp hm with h | h
        · exact hi.exported n k h
        · simp at h
          obtain ⟨rfl, rfl⟩ := h
          exact ⟨p, hp, rfl⟩
    · refine ⟨⟨hok.props, hok.imports, hok.viaArt, hok.deps, hok.arts, ?_⟩, fun _ _ => ?_⟩
      · intro n k hm
        refine hok.exported n k ?_
        simp only [addNew]
        split
        · exact hm
        · exact List.mem_append_left _ hm
      · obtain ⟨p2, hp2, hk⟩ := hok.exported prod p.exported hmem
        simp [World.answer, hp, hp2, hk]
  | use file =>
    obtain ⟨m, c, hf, hle⟩ := hs.files file hq
    have hr : record w1 flag now (.use file) r =
        { r with imports := addNew file now r.imports } := rfl
    rw [hr]
    have hmem : (file, now) ∈ addNew file now r.imports := by
      unfold addNew
      split
      · rename_i h
        obtain ⟨k, hk⟩ := Option.isSome_iff_exists.mp h
        obtain ⟨rfl, _⟩ := hi.imports _ _ (mem_of_look hk)
        exact mem_of_look hk
      · simp
    refine ⟨⟨hi.props, hi.viaArt, hi.deps, hi.arts, ?_, hi.exported⟩, fun w2 _ hok => ?_⟩
    · intro f t hm
      simp only [addNew] at hm
      split at hm
      · exact hi.imports f t hm
      · rcases List.mem_append.mp hm with h | h
        · exact hi.imports f t h
        · simp at h
          obtain ⟨rfl, rfl⟩ := h
          exact ⟨rfl, m, c, hf, hle⟩
    · refine ⟨⟨hok.props, ?_, hok.viaArt, hok.deps, hok.arts, hok.exported⟩, fun hc _ => ?_⟩
      · intro f t hm
        refine hok.imports f t ?_
        simp only [addNew]
        split
        · exact hm
        · exact List.mem_append_left _ hm
      · obtain ⟨m2, c2, hf2, hle2⟩ := hok.imports file now hmem
        obtain ⟨m', hf'⟩ := hc.files file m2 c2 hf2 hle2
        rw [hf] at hf'; cases hf'
        simp [World.answer, hf, hf2]

end Verif.Track
