import Verif.Graph.Effects

/-! # removeArtifactAndExclusiveDependents: proofs -/

namespace Verif.Graph

/-- What a build graph has to satisfy for removal. -/
structure RemovalOk (s : State) : Prop where
  sym : Symmetric s
  inpCh : ∀ p t i, s.isArt p → s.trafo p = some t → i ∈ s.inp t → i ∈ s.ch p
  scanCh : ∀ p c, c ∈ s.scan p → c ∈ s.ch p ∧ s.isArt p ∧ s.isArt c
  bnd : ∀ c, s.pa c ≠ [] → c < s.bound
  look : ∀ k, (s.lookup k).Nodup
  oldPa : ∀ r x, s.isArt r = false → x ∈ s.old r → x ≠ 0 → r ∈ s.pa x
  oldExPa : ∀ r x, s.isArt r = false → x ∈ s.oldEx r → x ≠ 0 → r ∈ s.pa x

/-- Relations between the initial graph and the one during removal. -/
structure RInv (s0 : State) (A : List Nat) (s : State) : Prop where
  base : SameBase s0 s
  sym : Symmetric s
  chSub : ∀ p c, c ∈ s.ch p → c ∈ s0.ch p
  cut : ∀ p c, c ∈ s0.ch p → c ∉ s.ch p → c ∈ s.removed ∨ p ∈ s.removed
  scanSub : ∀ p c, c ∈ s.scan p → c ∈ s0.scan p ∧ c ∈ s.ch p
  scanCut : ∀ p c, c ∈ s0.scan p → c ∉ s.scan p → c ∈ s.removed ∨ p ∈ s.removed
  inpSub : ∀ t i, i ∈ s.inp t → i ∈ s0.inp t
  inpCut : ∀ t i, i ∈ s0.inp t → i ∉ s.inp t → i ∈ s.removed
  inpCh : ∀ p t i, s0.isArt p → p ∉ s.removed → s0.trafo p = some t → i ∈ s.inp t → i ∈ s.ch p
  sound : ∀ x ∈ s.removed, Gone s0 A x ∧ s0.isArt x
  pend : ∀ p c, s0.isArt p → p ∉ s.removed → c ∈ s0.ch p → c ∉ s.ch p →
    (∃ k ∈ s.removed, k ∈ s.ch p) ∨
      (s.ch p ≠ [] ∧ ∀ t, s0.trafo p = some t → s.inp t ≠ [])
  tsCut : ∀ p c, s0.isArt p → p ∉ s.removed → c ∈ s0.ch p → c ∉ s.ch p → s.tsOk p = false
  tsKeep : ∀ p, p ∉ s.removed → (∀ c ∈ s0.ch p, c ∈ s.ch p) → s.tsOk p = s0.tsOk p
  look : ∀ k, (s.lookup k).Nodup
  lookKeep : ∀ k x, x ∈ s0.lookup k → x ∉ s.lookup k → x ∈ s.removed
  nodesKeep : ∀ p x, x ∈ s0.nodes p → x ∉ s.nodes p → x ∈ s.removed
  rootsKeep : ∀ p x, x ∈ s0.roots p → x ∉ s.roots p → x ∈ s.removed
  tagKeep : ∀ p t x, x ∈ s0.byTag p t → x ∉ s.byTag p t → x ∈ s.removed
  outKeep : ∀ t x, x ∈ s0.out t → x ∉ s.out t → x ∈ s.removed
  diskKeep : ∀ k, s0.disk k = true → s.disk k = false → ∃ x ∈ s.removed, s0.gen x ∧ s0.path x = k
  oldPa : ∀ r x, s0.isArt r = false → x ∈ s.old r → x ≠ 0 → r ∈ s.pa x
  oldExPa : ∀ r x, s0.isArt r = false → x ∈ s.oldEx r → x ≠ 0 → r ∈ s.pa x
  oldKeep : ∀ r x, x ∈ s0.old r → x ∉ s.old r → x ∈ s.removed
  oldExKeep : ∀ r x, x ∈ s0.oldEx r → x ∉ s.oldEx r → x ∈ s.removed

/-- Things only get fewer. -/
structure Shrink (s s' : State) : Prop where
  ch : ∀ p c, c ∈ s'.ch p → c ∈ s.ch p
  pa : ∀ c, (s'.pa c).Sublist (s.pa c)
  inp : ∀ t i, i ∈ s'.inp t → i ∈ s.inp t
  expl : ∀ t i, i ∈ s'.expl t → i ∈ s.expl t
  out : ∀ t i, i ∈ s'.out t → i ∈ s.out t
  look : ∀ k x, x ∈ s'.lookup k → x ∈ s.lookup k
  nodes : ∀ p x, x ∈ s'.nodes p → x ∈ s.nodes p
  roots : ∀ p x, x ∈ s'.roots p → x ∈ s.roots p
  byTag : ∀ p t x, x ∈ s'.byTag p t → x ∈ s.byTag p t
  disk : ∀ k, s.disk k = false → s'.disk k = false
  removed : ∀ x ∈ s.removed, x ∈ s'.removed

theorem Shrink.refl (s : State) : Shrink s s :=
  ⟨fun _ _ h => h, fun _ => List.Sublist.refl _, fun _ _ h => h, fun _ _ h => h, fun _ _ h => h,
   fun _ _ h => h, fun _ _ h => h, fun _ _ h => h, fun _ _ _ h => h, fun _ h => h, fun _ h => h⟩

theorem Shrink.trans {s s' s'' : State} (h : Shrink s s') (h' : Shrink s' s'') : Shrink s s'' :=
  ⟨fun p c x => h.ch p c (h'.ch p c x), fun c => (h'.pa c).trans (h.pa c),
   fun t i x => h.inp t i (h'.inp t i x), fun t i x => h.expl t i (h'.expl t i x),
   fun t i x => h.out t i (h'.out t i x),
   fun k x y => h.look k x (h'.look k x y), fun p x y => h.nodes p x (h'.nodes p x y),
   fun p x y => h.roots p x (h'.roots p x y), fun p t x y => h.byTag p t x (h'.byTag p t x y),
   fun k x => h'.disk k (h.disk k x), fun x y => h'.removed x (h.removed x y)⟩

/-- `x` has been taken out of the graph completely. -/
structure Done (s0 : State) (fp : Bool) (s : State) (x : Nat) : Prop where
  pa : s.pa x = []
  ch : s.ch x = []
  look : ∀ k, x ∉ s.lookup k ∨ k ≠ s0.path x
  out : ∀ t, s0.trafo x = some t → x ∉ s.out t
  disk : s0.gen x → s.disk (s0.path x) = false
  nodes : fp → ∀ p, s0.prod x = some p → x ∉ s.nodes p ∧ x ∉ s.roots p ∧
    ∀ t ∈ s0.tags x, x ∉ s.byTag p t

theorem Done.mono {s0 : State} {fp : Bool} {s s' : State} {x : Nat} (h : Done s0 fp s x)
    (hs : Shrink s s') : Done s0 fp s' x := by
  refine ⟨?_, ?_, ?_, ?_, ?_, ?_⟩
  · have := hs.pa x; rw [h.pa] at this; simpa using this
  · cases hc : s'.ch x with
    | nil => rfl
    | cons c cs =>
      have := hs.ch x c (by simp [hc])
      simp [h.ch] at this
  · intro k
    rcases h.look k with h1 | h1
    · exact .inl fun hm => h1 (hs.look k x hm)
    · exact .inr h1
  · intro t ht hm
    exact h.out t ht (hs.out t x hm)
  · intro hg; exact hs.disk _ (h.disk hg)
  · intro hf p hp
    obtain ⟨h1, h2, h3⟩ := h.nodes hf p hp
    exact ⟨fun hm => h1 (hs.nodes p x hm), fun hm => h2 (hs.roots p x hm),
      fun t ht hm => h3 t ht (hs.byTag p t x hm)⟩

theorem RInv.init {s0 : State} {A : List Nat} (h : RemovalOk s0) (hr : s0.removed = []) :
    RInv s0 A s0 := by
  refine ⟨SameBase.refl s0, h.sym, fun _ _ h => h, fun _ _ h h' => absurd h h',
    fun p c hc => ⟨hc, (h.scanCh p c hc).1⟩, fun _ _ h h' => absurd h h', fun _ _ h => h,
    fun _ _ h h' => absurd h h', fun p t i ha _ ht hi => h.inpCh p t i ha ht hi, ?_,
    fun _ _ _ _ h h' => absurd h h', fun _ _ _ _ h h' => absurd h h', fun _ _ _ => rfl, h.look,
    fun _ _ h h' => absurd h h', fun _ _ h h' => absurd h h', fun _ _ h h' => absurd h h',
    fun _ _ _ h h' => absurd h h', fun _ _ h h' => absurd h h', ?_, h.oldPa, h.oldExPa,
    fun _ _ h h' => absurd h h', fun _ _ h h' => absurd h h'⟩
  · simp [hr]
  · intro k h1 h2; simp [h1] at h2

theorem Shrink.addRemoved (s : State) (a : Nat) : Shrink s { s with removed := ins a s.removed } :=
  ⟨fun _ _ h => h, fun _ => List.Sublist.refl _, fun _ _ h => h, fun _ _ h => h, fun _ _ h => h,
   fun _ _ h => h, fun _ _ h => h, fun _ _ h => h, fun _ _ _ h => h, fun _ h => h,
   fun _ h => mem_ins.2 (.inr h)⟩

theorem RInv.addRemoved {s0 : State} {A : List Nat} {s : State} (h : RInv s0 A s) {a : Nat}
    (hg : Gone s0 A a) (ha : s0.isArt a) :
    RInv s0 A { s with removed := ins a s.removed } := by
  have up : ∀ x ∈ s.removed, x ∈ ins a s.removed := fun x hx => mem_ins.2 (.inr hx)
  have dn : ∀ x, x ∉ ins a s.removed → x ∉ s.removed := fun x hx hm => hx (up x hm)
  refine ⟨h.base.trans ⟨rfl, rfl, rfl, rfl, rfl, rfl, rfl, rfl, rfl, rfl, rfl⟩, h.sym, h.chSub, ?_,
    h.scanSub, ?_, h.inpSub, ?_, ?_, ?_, ?_, ?_, ?_, h.look, ?_, ?_, ?_, ?_, ?_, ?_, h.oldPa,
    h.oldExPa, ?_, ?_⟩
  · intro p c h1 h2
    exact (h.cut p c h1 h2).imp (up c) (up p)
  · intro p c h1 h2
    exact (h.scanCut p c h1 h2).imp (up c) (up p)
  · intro t i h1 h2; exact up i (h.inpCut t i h1 h2)
  · intro p t i h1 h2 h3 h4; exact h.inpCh p t i h1 (dn p h2) h3 h4
  · intro x hx
    rcases mem_ins.1 hx with rfl | hx
    · exact ⟨hg, ha⟩
    · exact h.sound x hx
  · intro p c h1 h2 h3 h4
    rcases h.pend p c h1 (dn p h2) h3 h4 with ⟨k, hk, hk'⟩ | h5
    · exact .inl ⟨k, up k hk, hk'⟩
    · exact .inr h5
  · intro p c h1 h2 h3 h4; exact h.tsCut p c h1 (dn p h2) h3 h4
  · intro p h1 h2; exact h.tsKeep p (dn p h1) h2
  · intro k x h1 h2; exact up x (h.lookKeep k x h1 h2)
  · intro k x h1 h2; exact up x (h.nodesKeep k x h1 h2)
  · intro k x h1 h2; exact up x (h.rootsKeep k x h1 h2)
  · intro p k x h1 h2; exact up x (h.tagKeep p k x h1 h2)
  · intro k x h1 h2; exact up x (h.outKeep k x h1 h2)
  · intro k h1 h2
    obtain ⟨x, hx, h3⟩ := h.diskKeep k h1 h2
    exact ⟨x, up x hx, h3⟩
  · intro r x h1 h2; exact up x (h.oldKeep r x h1 h2)
  · intro r x h1 h2; exact up x (h.oldExKeep r x h1 h2)

/-- What `examine` does. -/
structure ExEff (s : State) (p a : Nat) (s1 : State) (rm : Bool) : Prop where
  ch : ∀ q c, c ∈ s1.ch q ↔ c ∈ s.ch q ∧ ¬ (q = p ∧ c = a)
  pa : ∀ q c, q ∈ s1.pa c ↔ q ∈ s.pa c ∧ ¬ (q = p ∧ c = a)
  paSub : ∀ c, (s1.pa c).Sublist (s.pa c)
  scan : ∀ q c, c ∈ s1.scan q ↔ c ∈ s.scan q ∧ ¬ (s.isArt p ∧ s.isArt a ∧ q = p ∧ c = a)
  inpSub : ∀ t i, i ∈ s1.inp t → i ∈ s.inp t
  inpCut : ∀ t i, i ∈ s.inp t → i ∉ s1.inp t → i = a
  inpDel : s1.ch p ≠ [] → ∀ t, s.trafo p = some t → a ∉ s1.inp t
  rest : ∃ c pa sc i, s1 = { s with ch := c, pa := pa, scan := sc, inp := i }
  rmTrue : rm = true → s1.ch p = [] ∨ ∃ t, s.trafo p = some t ∧ s1.inp t = []
  rmFalse : rm = false → s1.ch p ≠ [] ∧ ∀ t, s.trafo p = some t → s1.inp t ≠ []

theorem disconnect_ch {s : State} {p a q c : Nat} :
    c ∈ (disconnect s p a).ch q ↔ c ∈ s.ch q ∧ ¬ (q = p ∧ c = a) := by
  simp only [disconnect, mem_modi, mem_del]
  by_cases h1 : q = p <;> by_cases h2 : c = a <;> simp [h1, h2]

theorem disconnect_pa {s : State} {p a q c : Nat} :
    q ∈ (disconnect s p a).pa c ↔ q ∈ s.pa c ∧ ¬ (q = p ∧ c = a) := by
  simp only [disconnect, mem_modi, mem_del]
  by_cases h1 : q = p <;> by_cases h2 : c = a <;> simp [h1, h2]

theorem disconnect_scan {s : State} {p a q c : Nat} :
    c ∈ (disconnect s p a).scan q ↔ c ∈ s.scan q ∧ ¬ (s.isArt p ∧ s.isArt a ∧ q = p ∧ c = a) := by
  simp only [disconnect]
  split
  · rename_i h
    simp only [mem_modi, mem_del]
    by_cases h1 : q = p <;> by_cases h2 : c = a <;> simp [h1, h2, h]
  · rename_i h
    constructor
    · exact fun hx => ⟨hx, fun hh => h ⟨hh.1, hh.2.1⟩⟩
    · exact fun hx => hx.1

theorem disconnect_paSub {s : State} {p a : Nat} (c : Nat) :
    ((disconnect s p a).pa c).Sublist (s.pa c) := by
  simp only [disconnect, modi]
  split
  · exact del_sublist _ _
  · exact List.Sublist.refl _

theorem examine_eff (s : State) (p a : Nat) :
    ExEff s p a (examine s p a).1 (examine s p a).2 := by
  unfold examine
  simp only
  split
  · rename_i hch
    exact ⟨fun _ _ => disconnect_ch, fun _ _ => disconnect_pa, disconnect_paSub,
      fun _ _ => disconnect_scan, fun _ _ h => h, fun _ _ h h' => absurd h h',
      fun h => absurd hch h, ⟨_, _, _, s.inp, rfl⟩, fun _ => .inl hch, by simp⟩
  · rename_i hch
    split
    · rename_i ht
      have ht : s.trafo p = none := ht
      exact ⟨fun _ _ => disconnect_ch, fun _ _ => disconnect_pa, disconnect_paSub,
        fun _ _ => disconnect_scan, fun _ _ h => h, fun _ _ h h' => absurd h h',
        fun _ t h => by simp [ht] at h, ⟨_, _, _, s.inp, rfl⟩, by simp,
        fun _ => ⟨hch, fun t h => by simp [ht] at h⟩⟩
    · rename_i t ht
      have ht : s.trafo p = some t := ht
      have hinp : (disconnect s p a).inp = s.inp := rfl
      refine ⟨fun _ _ => disconnect_ch, fun _ _ => disconnect_pa, disconnect_paSub,
        fun _ _ => disconnect_scan, ?_, ?_, ?_, ⟨_, _, _, _, rfl⟩, ?_, ?_⟩
      · intro t' i hi
        simp only [hinp, mem_modi, mem_del] at hi
        rcases hi with ⟨_, h, _⟩ | ⟨_, h⟩ <;> exact h
      · intro t' i hi hi'
        simp only [hinp, mem_modi, mem_del] at hi'
        by_cases h1 : t' = t
        · by_cases h2 : i = a
          · exact h2
          · exact absurd (Or.inl ⟨h1, hi, h2⟩) hi'
        · exact absurd (Or.inr ⟨h1, hi⟩) hi'
      · intro _ t' ht' hm
        rw [ht] at ht'
        simp only [Option.some.injEq] at ht'
        subst ht'
        simp [mem_modi, mem_del] at hm
      · intro hrm
        refine .inr ⟨t, ht, ?_⟩
        simpa using hrm
      · intro hrm
        refine ⟨hch, fun t' ht' => ?_⟩
        rw [ht] at ht'
        simp only [Option.some.injEq] at ht'
        subst ht'
        intro h0
        have h0' : modi (disconnect s p a).inp t (del a) t = [] := h0
        rw [h0'] at hrm
        cases hrm

theorem ExEff.shrink {s : State} {p a : Nat} {s1 : State} {rm : Bool} (h : ExEff s p a s1 rm) :
    Shrink s s1 := by
  obtain ⟨c, pa, sc, i, hr⟩ := h.rest
  refine ⟨fun q c hc => ((h.ch q c).1 hc).1, h.paSub, h.inpSub, ?_, ?_, ?_, ?_, ?_, ?_, ?_, ?_⟩ <;>
    rw [hr] <;> intros <;> assumption

/-- One loop iteration keeps the invariant, once the decision about `p` has been carried out: `R'`
is the new set of removed artifacts and `ts'` the new timestamps. -/
theorem RInv.examine {s0 : State} {A : List Nat} {s : State} (hi : RInv s0 A s) {p a : Nat}
    {s1 : State} {rm : Bool} (h : ExEff s p a s1 rm) (haR : a ∈ s.removed) (hp : s0.isArt p)
    (hpa : a ∈ s0.ch p) :
    (rm = true → Gone s0 A p ∧ RInv s0 A { s1 with removed := ins p s1.removed }) ∧
    (rm = false → RInv s0 A { s1 with tsOk := upd s1.tsOk p false }) := by
  obtain ⟨c', pa', sc', i', hr⟩ := h.rest
  have haA : s0.isArt a := (hi.sound a haR).2
  have hrem : s1.removed = s.removed := by rw [hr]
  have hts : s1.tsOk = s.tsOk := by rw [hr]
  have hbase : SameBase s0 s1 := by
    refine hi.base.trans ?_
    rw [hr]; exact ⟨rfl, rfl, rfl, rfl, rfl, rfl, rfl, rfl, rfl, rfl, rfl⟩
  have hsym : Symmetric s1 := fun q c => by rw [h.ch, h.pa, hi.sym q c]
  have hchSub : ∀ q c, c ∈ s1.ch q → c ∈ s0.ch q := fun q c hc => hi.chSub q c ((h.ch q c).1 hc).1
  have hcut : ∀ q c, c ∈ s0.ch q → c ∉ s1.ch q → c ∈ s.removed ∨ q ∈ s.removed := by
    intro q c h1 h2
    by_cases h3 : c ∈ s.ch q
    · by_cases h4 : q = p ∧ c = a
      · exact .inl (h4.2 ▸ haR)
      · exact absurd ((h.ch q c).2 ⟨h3, h4⟩) h2
    · exact hi.cut q c h1 h3
  have hscanSub : ∀ q c, c ∈ s1.scan q → c ∈ s0.scan q ∧ c ∈ s1.ch q := by
    intro q c hc
    rw [h.scan] at hc
    obtain ⟨h1, h2⟩ := hc
    obtain ⟨h3, h4⟩ := hi.scanSub q c h1
    refine ⟨h3, (h.ch q c).2 ⟨h4, ?_⟩⟩
    rintro ⟨rfl, rfl⟩
    refine h2 ⟨?_, ?_, rfl, rfl⟩
    · rw [hi.base.isArt]; exact hp
    · rw [hi.base.isArt]; exact haA
  have hscanCut : ∀ q c, c ∈ s0.scan q → c ∉ s1.scan q → c ∈ s.removed ∨ q ∈ s.removed := by
    intro q c h1 h2
    by_cases h3 : c ∈ s.scan q
    · by_cases h4 : s.isArt p ∧ s.isArt a ∧ q = p ∧ c = a
      · exact .inl (h4.2.2.2 ▸ haR)
      · exact absurd ((h.scan q c).2 ⟨h3, h4⟩) h2
    · exact hi.scanCut q c h1 h3
  have hinpSub : ∀ t i, i ∈ s1.inp t → i ∈ s0.inp t := fun t i hx => hi.inpSub t i (h.inpSub t i hx)
  have hinpCut : ∀ t i, i ∈ s0.inp t → i ∉ s1.inp t → i ∈ s.removed := by
    intro t i h1 h2
    by_cases h3 : i ∈ s.inp t
    · exact h.inpCut t i h3 h2 ▸ haR
    · exact hi.inpCut t i h1 h3
  have htr : s.trafo = s0.trafo := hi.base.trafo
  -- inputs of surviving artifacts other than `p` are still children
  have hinpCh : ∀ q t i, s0.isArt q → q ∉ s.removed → (q = p → s1.ch p ≠ []) →
      s0.trafo q = some t → i ∈ s1.inp t → i ∈ s1.ch q := by
    intro q t i h1 h2 hne h3 h4
    rw [h.ch]
    refine ⟨hi.inpCh q t i h1 h2 h3 (h.inpSub t i h4), ?_⟩
    rintro ⟨rfl, rfl⟩
    exact h.inpDel (hne rfl) t (by rw [htr]; exact h3) h4
  -- pending obligations of artifacts other than `p`
  have hpend : ∀ q c, s0.isArt q → q ∉ s.removed → q ≠ p → c ∈ s0.ch q → c ∉ s1.ch q →
      (∃ k ∈ s.removed, k ∈ s1.ch q) ∨
      (s1.ch q ≠ [] ∧ ∀ t, s0.trafo q = some t → s1.inp t ≠ []) := by
    intro q c h1 h2 hqp h3 h4
    have hsame : ∀ k, k ∈ s1.ch q ↔ k ∈ s.ch q := fun k => by
      rw [h.ch]; simp [hqp]
    have h4' : c ∉ s.ch q := fun hm => h4 ((hsame c).2 hm)
    rcases hi.pend q c h1 h2 h3 h4' with ⟨k, hk, hk'⟩ | ⟨h5, h6⟩
    · exact .inl ⟨k, hk, (hsame k).2 hk'⟩
    · by_cases haq : a ∈ s.ch q
      · exact .inl ⟨a, haR, (hsame a).2 haq⟩
      · refine .inr ⟨?_, ?_⟩
        · intro h0
          obtain ⟨k, ks, hk⟩ := List.exists_cons_of_ne_nil h5
          have : k ∈ s1.ch q := (hsame k).2 (by simp [hk])
          simp [h0] at this
        · intro t ht h0
          -- the inputs of `q`'s transformer did not contain `a`
          have hna : a ∉ s.inp t := fun hm => haq (hi.inpCh q t a h1 h2 ht hm)
          obtain ⟨k, ks, hk⟩ := List.exists_cons_of_ne_nil (h6 t ht)
          have hkm : k ∈ s.inp t := by simp [hk]
          by_cases hk1 : k ∈ s1.inp t
          · simp [h0] at hk1
          · have := h.inpCut t k hkm hk1
            subst this
            exact hna hkm
  have hGone : rm = true → Gone s0 A p := by
    intro hrm
    by_cases hpR : p ∈ s.removed
    · exact (hi.sound p hpR).1
    · rcases h.rmTrue hrm with h0 | ⟨t, ht, h0⟩
      · refine .noChild hp hpa (hi.sound a haR).1 fun k hk => ?_
        rcases hcut p k hk (by simp [h0]) with h1 | h1
        · exact (hi.sound k h1).1
        · exact absurd h1 hpR
      · refine .noInput hp hpa (hi.sound a haR).1 (by rw [← htr]; exact ht) fun i hi' => ?_
        exact (hi.sound i (hinpCut t i hi' (by simp [h0]))).1
  have hlook : s1.lookup = s.lookup := by rw [hr]
  have hnodes : s1.nodes = s.nodes := by rw [hr]
  have hroots : s1.roots = s.roots := by rw [hr]
  have hbyTag : s1.byTag = s.byTag := by rw [hr]
  have hout : s1.out = s.out := by rw [hr]
  have hdisk : s1.disk = s.disk := by rw [hr]
  have hold : s1.old = s.old := by rw [hr]
  have holdEx : s1.oldEx = s.oldEx := by rw [hr]
  have hO : ∀ r x, s0.isArt r = false → r ∈ s.pa x → r ∈ s1.pa x := by
    intro r x h1 h2
    rw [h.pa]
    refine ⟨h2, fun hh => ?_⟩
    rw [hh.1, hp] at h1
    cases h1
  have up : ∀ x ∈ s.removed, x ∈ ins p s.removed := fun x hx => mem_ins.2 (.inr hx)
  have dn : ∀ x, x ∉ ins p s.removed → x ∉ s.removed := fun x hx hm => hx (up x hm)
  constructor
  · intro hrm
    refine ⟨hGone hrm, ?_⟩
    simp only [hrem]
    refine ⟨hbase.trans ⟨rfl, rfl, rfl, rfl, rfl, rfl, rfl, rfl, rfl, rfl, rfl⟩, hsym, hchSub, ?_,
      hscanSub, ?_, hinpSub, ?_, ?_, ?_, ?_, ?_, ?_, ?_, ?_, ?_, ?_, ?_, ?_, ?_, ?_, ?_, ?_, ?_⟩
    · exact fun q c h1 h2 => (hcut q c h1 h2).imp (up c) (up q)
    · exact fun q c h1 h2 => (hscanCut q c h1 h2).imp (up c) (up q)
    · exact fun t i h1 h2 => up i (hinpCut t i h1 h2)
    · intro q t i h1 h2 h3 h4
      exact hinpCh q t i h1 (dn q h2) (fun hq => absurd (mem_ins.2 (.inl hq)) h2) h3 h4
    · intro x hx
      rcases mem_ins.1 hx with rfl | hx
      · exact ⟨hGone hrm, hp⟩
      · exact hi.sound x hx
    · intro q c h1 h2 h3 h4
      have hq : q ≠ p := fun hq => h2 (mem_ins.2 (.inl hq))
      rcases hpend q c h1 (dn q h2) hq h3 h4 with ⟨k, hk, hk'⟩ | h5
      · exact .inl ⟨k, up k hk, hk'⟩
      · exact .inr h5
    · intro q c h1 h2 h3 h4
      have hq : q ≠ p := fun hq => h2 (mem_ins.2 (.inl hq))
      simp only [hts]
      refine hi.tsCut q c h1 (dn q h2) h3 fun hm => h4 ((h.ch q c).2 ⟨hm, fun hh => hq hh.1⟩)
    · intro q h1 h2
      simp only [hts]
      exact hi.tsKeep q (dn q h1) fun c hc => ((h.ch q c).1 (h2 c hc)).1
    · simp only [hlook]; exact hi.look
    · simp only [hlook]; exact fun k x h1 h2 => up x (hi.lookKeep k x h1 h2)
    · simp only [hnodes]; exact fun k x h1 h2 => up x (hi.nodesKeep k x h1 h2)
    · simp only [hroots]; exact fun k x h1 h2 => up x (hi.rootsKeep k x h1 h2)
    · simp only [hbyTag]; exact fun q k x h1 h2 => up x (hi.tagKeep q k x h1 h2)
    · simp only [hout]; exact fun k x h1 h2 => up x (hi.outKeep k x h1 h2)
    · simp only [hdisk]
      intro k h1 h2
      obtain ⟨x, hx, h3⟩ := hi.diskKeep k h1 h2
      exact ⟨x, up x hx, h3⟩
    · simp only [hold]; exact fun r x h1 h2 h3 => hO r x h1 (hi.oldPa r x h1 h2 h3)
    · simp only [holdEx]; exact fun r x h1 h2 h3 => hO r x h1 (hi.oldExPa r x h1 h2 h3)
    · simp only [hold]; exact fun r x h1 h2 => up x (hi.oldKeep r x h1 h2)
    · simp only [holdEx]; exact fun r x h1 h2 => up x (hi.oldExKeep r x h1 h2)
  · intro hrm
    obtain ⟨hne, hine⟩ := h.rmFalse hrm
    refine ⟨hbase.trans ⟨rfl, rfl, rfl, rfl, rfl, rfl, rfl, rfl, rfl, rfl, rfl⟩, hsym, hchSub, ?_,
      hscanSub, ?_, hinpSub, ?_, ?_, ?_, ?_, ?_, ?_, ?_, ?_, ?_, ?_, ?_, ?_, ?_, ?_, ?_, ?_, ?_⟩
    · simp only [hrem]; exact hcut
    · simp only [hrem]; exact hscanCut
    · simp only [hrem]; exact hinpCut
    · simp only [hrem]
      intro q t i h1 h2 h3 h4
      exact hinpCh q t i h1 h2 (fun _ => hne) h3 h4
    · simp only [hrem]; exact hi.sound
    · simp only [hrem]
      intro q c h1 h2 h3 h4
      by_cases hq : q = p
      · subst hq
        exact .inr ⟨hne, fun t ht => hine t (by rw [htr]; exact ht)⟩
      · exact hpend q c h1 h2 hq h3 h4
    · simp only [hrem, hts]
      intro q c h1 h2 h3 h4
      unfold upd
      split
      · rfl
      · rename_i hq
        exact hi.tsCut q c h1 h2 h3 fun hm => h4 ((h.ch q c).2 ⟨hm, fun hh => hq hh.1⟩)
    · simp only [hrem, hts]
      intro q h1 h2
      unfold upd
      split
      · rename_i hq
        subst hq
        exact absurd rfl (fun _ : q = q => ((h.ch q a).1 (h2 a hpa)).2 ⟨rfl, rfl⟩)
      · exact hi.tsKeep q h1 fun c hc => ((h.ch q c).1 (h2 c hc)).1
    · simp only [hlook]; exact hi.look
    · simp only [hlook, hrem]; exact hi.lookKeep
    · simp only [hnodes, hrem]; exact hi.nodesKeep
    · simp only [hroots, hrem]; exact hi.rootsKeep
    · simp only [hbyTag, hrem]; exact hi.tagKeep
    · simp only [hout, hrem]; exact hi.outKeep
    · simp only [hdisk, hrem]; exact hi.diskKeep
    · simp only [hold]; exact fun r x h1 h2 h3 => hO r x h1 (hi.oldPa r x h1 h2 h3)
    · simp only [holdEx]; exact fun r x h1 h2 h3 => hO r x h1 (hi.oldExPa r x h1 h2 h3)
    · simp only [hold, hrem]; exact hi.oldKeep
    · simp only [holdEx, hrem]; exact hi.oldExKeep

theorem RemEff.shrink {s : State} {a : Nat} {d fp : Bool} {s' : State} (h : RemEff s a d fp s') :
    Shrink s s' := by
  refine ⟨fun p c hc => ((h.ch p c).1 hc).1, h.paSub, fun t i hi => ((h.inp t i).1 hi).1,
    fun t i hi => ((h.expl t i).1 hi).1, fun t i hi => ((h.out t i).1 hi).1, ?_,
    fun p x hx => ((h.nodes p x).1 hx).1, fun p x hx => ((h.roots p x).1 hx).1,
    fun p t x hx => ((h.byTag p t x).1 hx).1, ?_, ?_⟩
  · intro k x hx
    rw [h.lookup] at hx
    split at hx
    · exact List.mem_of_mem_erase hx
    · exact hx
  · intro k hk
    rw [h.disk]
    split
    · rfl
    · exact hk
  · rw [h.removed]; exact fun x hx => hx

/-- Removing `a` itself keeps the invariant and completes `a`, provided no artifact is a parent of
`a` any more. -/
theorem RInv.remove {s0 : State} {A : List Nat} {s : State} (hi : RInv s0 A s) {a : Nat}
    {fp : Bool} {s' : State} (h : RemEff s a (s.gen a) fp s') (haR : a ∈ s.removed)
    (hpar : ∀ p ∈ s.pa a, s0.isArt p = false)
    (hscan : ∀ p c, c ∈ s0.scan p → s0.isArt p) :
    RInv s0 A s' ∧ Done s0 fp s' a := by
  have hrem : s'.removed = s.removed := h.removed
  have hpart : ∀ p ∈ s.pa a, s.isArt p = true → False := fun p hp ha => by
    rw [hi.base.isArt, hpar p hp] at ha; cases ha
  have hinp : ∀ t i, i ∈ s'.inp t ↔ i ∈ s.inp t := by
    intro t i
    rw [h.inp]
    exact ⟨fun hx => hx.1, fun hx => ⟨hx, fun ⟨_, p, hp, _, hpa, _⟩ => hpart p hp hpa⟩⟩
  have haA : s0.isArt a := (hi.sound a haR).2
  constructor
  · refine ⟨hi.base.trans h.base, ?_, ?_, ?_, ?_, ?_, ?_, ?_, ?_, ?_, ?_, ?_, ?_, ?_, ?_, ?_, ?_, ?_,
      ?_, ?_, ?_, ?_, ?_, ?_⟩
    · intro p c; rw [h.ch, h.pa, hi.sym p c]
    · intro p c hc; exact hi.chSub p c ((h.ch p c).1 hc).1
    · rw [hrem]
      intro p c h1 h2
      by_cases h3 : c ∈ s.ch p
      · by_cases h4 : p = a
        · exact .inr (h4 ▸ haR)
        · by_cases h5 : c = a
          · exact .inl (h5 ▸ haR)
          · exact absurd ((h.ch p c).2 ⟨h3, h4, h5⟩) h2
      · exact hi.cut p c h1 h3
    · intro p c hc
      rw [h.scan] at hc
      obtain ⟨h1, h2, h3⟩ := hc
      obtain ⟨h4, h5⟩ := hi.scanSub p c h1
      refine ⟨h4, (h.ch p c).2 ⟨h5, h2, fun hca => ?_⟩⟩
      subst hca
      have hpp := (hi.sym p c).1 h5
      have hpf := hpar p hpp
      rw [hscan p c h4] at hpf
      cases hpf
    · rw [hrem]
      intro p c h1 h2
      by_cases h3 : c ∈ s.scan p
      · by_cases h4 : p = a
        · exact .inr (h4 ▸ haR)
        · by_cases h5 : c = a
          · exact .inl (h5 ▸ haR)
          · exact absurd ((h.scan p c).2 ⟨h3, h4, fun hh => h5 hh.1⟩) h2
      · exact hi.scanCut p c h1 h3
    · intro t i hx; exact hi.inpSub t i ((hinp t i).1 hx)
    · rw [hrem]
      intro t i h1 h2
      exact hi.inpCut t i h1 fun hm => h2 ((hinp t i).2 hm)
    · rw [hrem]
      intro p t i h1 h2 h3 h4
      have h5 := hi.inpCh p t i h1 h2 h3 ((hinp t i).1 h4)
      refine (h.ch p i).2 ⟨h5, fun hpa => h2 (hpa ▸ haR), fun hia => ?_⟩
      subst hia
      have := hpar p ((hi.sym p i).1 h5)
      rw [h1] at this; cases this
    · rw [hrem]; exact hi.sound
    · rw [hrem]
      intro p c h1 h2 h3 h4
      have hpa : p ≠ a := fun hh => h2 (hh ▸ haR)
      have hac : a ∉ s.ch p := fun hm => by
        have := hpar p ((hi.sym p a).1 hm)
        rw [h1] at this; cases this
      have hsame : ∀ k, k ∈ s'.ch p ↔ k ∈ s.ch p := fun k => by
        rw [h.ch]
        exact ⟨fun hx => hx.1, fun hx => ⟨hx, hpa, fun hh => hac (hh ▸ hx)⟩⟩
      rcases hi.pend p c h1 h2 h3 (fun hm => h4 ((hsame c).2 hm)) with ⟨k, hk, hk'⟩ | ⟨h5, h6⟩
      · exact .inl ⟨k, hk, (hsame k).2 hk'⟩
      · refine .inr ⟨?_, ?_⟩
        · intro h0
          obtain ⟨k, ks, hk⟩ := List.exists_cons_of_ne_nil h5
          have : k ∈ s'.ch p := (hsame k).2 (by simp [hk])
          simp [h0] at this
        · intro t ht h0
          obtain ⟨k, ks, hk⟩ := List.exists_cons_of_ne_nil (h6 t ht)
          have : k ∈ s'.inp t := (hinp t k).2 (by simp [hk])
          simp [h0] at this
    · rw [hrem, h.tsOk]
      intro p c h1 h2 h3 h4
      have hpa : p ≠ a := fun hh => h2 (hh ▸ haR)
      have hac : a ∉ s.ch p := fun hm => by
        have := hpar p ((hi.sym p a).1 hm)
        rw [h1] at this; cases this
      exact hi.tsCut p c h1 h2 h3 fun hm => h4 ((h.ch p c).2 ⟨hm, hpa, fun hh => hac (hh ▸ hm)⟩)
    · rw [hrem, h.tsOk]
      intro p h1 h2
      exact hi.tsKeep p h1 fun c hc => ((h.ch p c).1 (h2 c hc)).1
    · intro k
      rw [h.lookup]
      split
      · exact (hi.look k).erase a
      · exact hi.look k
    · rw [hrem]
      intro k x h1 h2
      by_cases h3 : x ∈ s.lookup k
      · by_cases h4 : x = a
        · exact h4 ▸ haR
        · exfalso
          apply h2
          rw [h.lookup]
          split
          · exact (List.mem_erase_of_ne h4).2 h3
          · exact h3
      · exact hi.lookKeep k x h1 h3
    · rw [hrem]
      intro k x h1 h2
      by_cases h3 : x ∈ s.nodes k
      · by_cases h4 : x = a
        · exact h4 ▸ haR
        · exact absurd ((h.nodes k x).2 ⟨h3, fun hh => h4 hh.2.1⟩) h2
      · exact hi.nodesKeep k x h1 h3
    · rw [hrem]
      intro k x h1 h2
      by_cases h3 : x ∈ s.roots k
      · by_cases h4 : x = a
        · exact h4 ▸ haR
        · exact absurd ((h.roots k x).2 ⟨h3, fun hh => h4 hh.2.1⟩) h2
      · exact hi.rootsKeep k x h1 h3
    · rw [hrem]
      intro k t x h1 h2
      by_cases h3 : x ∈ s.byTag k t
      · by_cases h4 : x = a
        · exact h4 ▸ haR
        · exact absurd ((h.byTag k t x).2 ⟨h3, fun hh => h4 hh.2.1⟩) h2
      · exact hi.tagKeep k t x h1 h3
    · rw [hrem]
      intro t x h1 h2
      by_cases h3 : x ∈ s.out t
      · by_cases h4 : x = a
        · exact h4 ▸ haR
        · exact absurd ((h.out t x).2 ⟨h3, fun hh => h4 hh.1⟩) h2
      · exact hi.outKeep t x h1 h3
    · rw [hrem]
      intro k h1 h2
      rw [h.disk] at h2
      split at h2
      · rename_i hc
        simp only [Bool.and_eq_true, Bool.and_self, decide_eq_true_eq] at hc
        refine ⟨a, haR, ?_, ?_⟩
        · rw [← hi.base.gen]; exact hc.1
        · rw [← hi.base.path]; exact hc.2.symm
      · exact hi.diskKeep k h1 h2
    · intro r x h1 h2 h3
      rcases (h.old r x).1 h2 with ⟨h4, h5⟩ | h4
      · have h6 := hi.oldPa r x h1 h4 h3
        refine (h.pa r x).2 ⟨h6, fun hh => ?_, fun hh => h5 ⟨hh, hh ▸ h6, ?_⟩⟩
        · rw [hh, haA] at h1; cases h1
        · rw [hi.base.isArt]; exact h1
      · exact absurd h4.1 h3
    · intro r x h1 h2 h3
      rcases (h.oldEx r x).1 h2 with ⟨h4, h5⟩ | h4
      · have h6 := hi.oldExPa r x h1 h4 h3
        refine (h.pa r x).2 ⟨h6, fun hh => ?_, fun hh => h5 ⟨hh, hh ▸ h6, ?_⟩⟩
        · rw [hh, haA] at h1; cases h1
        · rw [hi.base.isArt]; exact h1
      · exact absurd h4.1 h3
    · rw [hrem]
      intro r x h1 h2
      by_cases h3 : x ∈ s.old r
      · by_cases h4 : x = a
        · exact h4 ▸ haR
        · exact absurd ((h.old r x).2 (.inl ⟨h3, fun hh => h4 hh.1⟩)) h2
      · exact hi.oldKeep r x h1 h3
    · rw [hrem]
      intro r x h1 h2
      by_cases h3 : x ∈ s.oldEx r
      · by_cases h4 : x = a
        · exact h4 ▸ haR
        · exact absurd ((h.oldEx r x).2 (.inl ⟨h3, fun hh => h4 hh.1⟩)) h2
      · exact hi.oldExKeep r x h1 h3
  · refine ⟨?_, ?_, ?_, ?_, ?_, ?_⟩
    · cases hc : s'.pa a with
      | nil => rfl
      | cons p ps =>
        exact absurd rfl ((h.pa p a).1 (by simp [hc])).2.2
    · cases hc : s'.ch a with
      | nil => rfl
      | cons p ps =>
        exact absurd rfl ((h.ch a p).1 (by simp [hc])).2.1
    · intro k
      by_cases hk : k = s0.path a
      · left
        rw [h.lookup, if_pos (by rw [hi.base.path]; exact hk)]
        exact fun hm => ((hi.look k).mem_erase_iff.1 hm).1 rfl
      · exact .inr hk
    · intro t ht hm
      exact ((h.out t a).1 hm).2 ⟨rfl, by rw [hi.base.trafo]; exact ht⟩
    · intro hg
      rw [h.disk, hi.base.gen, hi.base.path]
      simp [hg]
    · intro hf p hp
      have hp' : s.prod a = some p := by rw [hi.base.prod]; exact hp
      refine ⟨fun hm => ((h.nodes p a).1 hm).2 ⟨hf, rfl, hp'⟩,
        fun hm => ((h.roots p a).1 hm).2 ⟨hf, rfl, hp'⟩,
        fun t ht hm => ((h.byTag p t a).1 hm).2 ⟨hf, rfl, hp', ?_⟩⟩
      rw [hi.base.tags]; exact ht

/-- What a call (or a part of one) guarantees. -/
structure CallPost (s0 : State) (A : List Nat) (fp : Bool) (s s' : State) : Prop where
  inv : RInv s0 A s'
  shrink : Shrink s s'
  done : ∀ x ∈ s'.removed, x ∈ s.removed ∨ Done s0 fp s' x

theorem parentLoop_post {s0 : State} {A : List Nat} {fp : Bool} {a : Nat}
    {g : State → Nat → Option State}
    (hg : ∀ s b s', RInv s0 A { s with removed := ins b s.removed } → g s b = some s' →
      CallPost s0 A fp { s with removed := ins b s.removed } s' ∧ Done s0 fp s' b)
    (ps : List Nat) (hps : ∀ p ∈ ps, s0.isArt p ∧ a ∈ s0.ch p) (s s' : State) (hi : RInv s0 A s)
    (haR : a ∈ s.removed) (h : parentLoop g a ps s = some s') :
    CallPost s0 A fp s s' ∧ ∀ p ∈ ps, p ∉ s'.pa a := by
  induction ps generalizing s with
  | nil =>
    simp only [parentLoop, Option.some.injEq] at h
    subst h
    exact ⟨⟨hi, Shrink.refl s, fun x hx => .inl hx⟩, by simp⟩
  | cons p ps ih =>
    have he := examine_eff s p a
    obtain ⟨hp1, hp2⟩ := hps p (by simp)
    have hps' : ∀ q ∈ ps, s0.isArt q ∧ a ∈ s0.ch q := fun q hq => hps q (by simp [hq])
    obtain ⟨htrue, hfalse⟩ := hi.examine he haR hp1 hp2
    have hsh := he.shrink
    have hpcut : p ∉ (examine s p a).1.pa a := fun hm => ((he.pa p a).1 hm).2 ⟨rfl, rfl⟩
    have hremeq : (examine s p a).1.removed = s.removed := by
      obtain ⟨_, _, _, _, hr⟩ := he.rest; rw [hr]
    simp only [parentLoop] at h
    generalize hs1 : (examine s p a).1 = s1 at *
    generalize hrm : (examine s p a).2 = rm at *
    cases rm with
    | true =>
      simp only [if_true] at h
      split at h
      · cases h
      · rename_i s2 hs2
        obtain ⟨hgp, hi1⟩ := htrue rfl
        obtain ⟨hc, hd⟩ := hg s1 p s2 hi1 hs2
        have hsh2 : Shrink s s2 := hsh.trans ((Shrink.addRemoved s1 p).trans hc.shrink)
        obtain ⟨hc3, hcut3⟩ := ih hps' s2 hc.inv (hsh2.removed a haR) h
        refine ⟨⟨hc3.inv, hsh2.trans hc3.shrink, ?_⟩, ?_⟩
        · intro x hx
          rcases hc3.done x hx with h1 | h1
          · rcases hc.done x h1 with h2 | h2
            · rcases mem_ins.1 h2 with rfl | h2
              · exact .inr (hd.mono hc3.shrink)
              · rw [hremeq] at h2; exact .inl h2
            · exact .inr (h2.mono hc3.shrink)
          · exact .inr h1
        · intro q hq
          rcases List.mem_cons.1 hq with rfl | hq
          · intro hm
            exact hpcut ((hc.shrink.pa a).subset ((hc3.shrink.pa a).subset hm))
          · exact hcut3 q hq
    | false =>
      simp only [Bool.false_eq_true, if_false] at h
      have hi1 := hfalse rfl
      have hsh1 : Shrink s { s1 with tsOk := upd s1.tsOk p false } :=
        hsh.trans ⟨fun _ _ h => h, fun _ => List.Sublist.refl _, fun _ _ h => h, fun _ _ h => h,
          fun _ _ h => h, fun _ _ h => h, fun _ _ h => h, fun _ _ h => h, fun _ _ _ h => h,
          fun _ h => h, fun _ h => h⟩
      obtain ⟨hc3, hcut3⟩ := ih hps' _ hi1 (hsh1.removed a haR) h
      refine ⟨⟨hc3.inv, hsh1.trans hc3.shrink, ?_⟩, ?_⟩
      · intro x hx
        rcases hc3.done x hx with h1 | h1
        · simp only [hremeq] at h1
          exact .inl h1
        · exact .inr h1
      · intro q hq
        rcases List.mem_cons.1 hq with rfl | hq
        · intro hm
          exact hpcut ((hc3.shrink.pa a).subset hm)
        · exact hcut3 q hq

theorem removeExcl_post {s0 : State} {A : List Nat} (fp : Bool)
    (hsym0 : Symmetric s0) (hscan : ∀ p c, c ∈ s0.scan p → s0.isArt p) (f : Nat) :
    ∀ s a s', RInv s0 A { s with removed := ins a s.removed } → removeExcl fp f s a = some s' →
      CallPost s0 A fp { s with removed := ins a s.removed } s' ∧ Done s0 fp s' a := by
  induction f with
  | zero => intro s a s' _ h; simp [removeExcl] at h
  | succ f ih =>
    intro s a s' hi h
    simp only [removeExcl] at h
    split at h
    · cases h
    · rename_i s2 hs2
      have haR : a ∈ ({ s with removed := ins a s.removed } : State).removed :=
        mem_ins.2 (.inl rfl)
      obtain ⟨hc, hcut⟩ := parentLoop_post ih _ (by
        intro p hp
        rw [List.mem_filter] at hp
        refine ⟨by rw [← hi.base.isArt]; exact hp.2, ?_⟩
        exact hi.chSub p a ((hi.sym p a).2 hp.1)) _ s2 hi haR hs2
      have he := removeArtifact_eff hc.inv.sym h
      have haR2 := hc.shrink.removed a haR
      obtain ⟨hi3, hd3⟩ := hc.inv.remove he haR2 (by
        intro p hp
        cases hpa : s0.isArt p with
        | false => rfl
        | true =>
          exfalso
          refine hcut p ?_ hp
          rw [List.mem_filter]
          refine ⟨(hc.shrink.pa a).subset hp, ?_⟩
          have := hi.base.isArt
          simp only at this ⊢
          rw [this]; exact hpa) hscan
      refine ⟨⟨hi3, hc.shrink.trans he.shrink, ?_⟩, hd3⟩
      intro x hx
      rw [he.removed] at hx
      exact (hc.done x hx).imp id fun h => h.mono he.shrink

/-! ## Termination -/

/-- Number of parent links. -/
def links (pa : Nat → List Nat) : Nat → Nat
  | 0 => 0
  | n + 1 => links pa n + (pa n).length

theorem links_le {pa pa' : Nat → List Nat} (h : ∀ i, (pa' i).Sublist (pa i)) (n : Nat) :
    links pa' n ≤ links pa n := by
  induction n with
  | zero => simp [links]
  | succ n ih => have := (h n).length_le; simp only [links]; omega

theorem links_lt {pa pa' : Nat → List Nat} (h : ∀ i, (pa' i).Sublist (pa i)) {n k x : Nat}
    (hk : k < n) (hx : x ∈ pa k) (hx' : x ∉ pa' k) : links pa' n < links pa n := by
  induction n with
  | zero => omega
  | succ n ih =>
    simp only [links]
    by_cases hkn : k = n
    · subst hkn
      have h1 := links_le h k
      have h2 : (pa' k).length < (pa k).length := by
        rcases Nat.lt_or_ge (pa' k).length (pa k).length with h3 | h3
        · exact h3
        · exact absurd ((h k).eq_of_length_le h3 ▸ hx) hx'
      omega
    · have h1 := ih (by omega)
      have h2 := (h n).length_le
      omega

theorem parentLoop_some {s0 : State} {A : List Nat} {fp : Bool} {a N L : Nat}
    {g : State → Nat → Option State}
    (hpost : ∀ s b s', RInv s0 A { s with removed := ins b s.removed } → g s b = some s' →
      CallPost s0 A fp { s with removed := ins b s.removed } s' ∧ Done s0 fp s' b)
    (hg : ∀ s b, RInv s0 A { s with removed := ins b s.removed } → links s.pa N < L →
      ∃ s', g s b = some s')
    (ps : List Nat) (hps : ∀ p ∈ ps, s0.isArt p ∧ a ∈ s0.ch p) (paI : Nat → List Nat)
    (hL : links paI N ≤ L) (haN : a < N) (hpaI : ∀ p ∈ ps, p ∈ paI a)
    (s : State) (hsub : ∀ i, (s.pa i).Sublist (paI i)) (hi : RInv s0 A s)
    (haR : a ∈ s.removed) : ∃ s', parentLoop g a ps s = some s' := by
  induction ps generalizing s with
  | nil => exact ⟨s, rfl⟩
  | cons p ps ih =>
    have he := examine_eff s p a
    obtain ⟨hp1, hp2⟩ := hps p (by simp)
    have hps' : ∀ q ∈ ps, s0.isArt q ∧ a ∈ s0.ch q := fun q hq => hps q (by simp [hq])
    have hpaI' : ∀ q ∈ ps, q ∈ paI a := fun q hq => hpaI q (by simp [hq])
    obtain ⟨htrue, hfalse⟩ := hi.examine he haR hp1 hp2
    have hsh := he.shrink
    have hpcut : p ∉ (examine s p a).1.pa a := fun hm => ((he.pa p a).1 hm).2 ⟨rfl, rfl⟩
    have hsub1 : ∀ i, ((examine s p a).1.pa i).Sublist (paI i) :=
      fun i => (hsh.pa i).trans (hsub i)
    have hlt : links (examine s p a).1.pa N < links paI N :=
      links_lt hsub1 haN (hpaI p (by simp)) hpcut
    simp only [parentLoop]
    generalize hs1 : (examine s p a).1 = s1 at *
    generalize hrm : (examine s p a).2 = rm at *
    cases rm with
    | true =>
      simp only [if_true]
      obtain ⟨_, hi1⟩ := htrue rfl
      obtain ⟨s2, hs2⟩ := hg s1 p hi1 (by omega)
      rw [hs2]
      obtain ⟨hc, _⟩ := hpost s1 p s2 hi1 hs2
      have hsh2 : Shrink s1 s2 := (Shrink.addRemoved s1 p).trans hc.shrink
      exact ih hps' hpaI' s2 (fun i => (hsh2.pa i).trans (hsub1 i)) hc.inv
        (hsh2.removed a (hsh.removed a haR))
    | false =>
      simp only [Bool.false_eq_true, if_false]
      exact ih hps' hpaI' _ hsub1 (hfalse rfl) (hsh.removed a haR)

theorem removeExcl_some {s0 : State} {A : List Nat} (fp : Bool) (hok : RemovalOk s0)
    (hprod : ∀ x, s0.isArt x → (x ∈ A ∨ s0.ch x ≠ []) → fp → s0.prod x ≠ none) (f : Nat) :
    ∀ s a, RInv s0 A { s with removed := ins a s.removed } → links s.pa s0.bound < f →
      ∃ s', removeExcl fp f s a = some s' := by
  have hscan : ∀ p c, c ∈ s0.scan p → s0.isArt p := fun p c h => (hok.scanCh p c h).2.1
  induction f with
  | zero => intro s a _ h; omega
  | succ f ih =>
    intro s a hi hL
    have haR : a ∈ ({ s with removed := ins a s.removed } : State).removed := mem_ins.2 (.inl rfl)
    have hps : ∀ p ∈ (s.pa a).filter s.isArt, s0.isArt p ∧ a ∈ s0.ch p := by
      intro p hp
      rw [List.mem_filter] at hp
      refine ⟨by rw [← hi.base.isArt]; exact hp.2, ?_⟩
      exact hi.chSub p a ((hi.sym p a).2 hp.1)
    have hloop : ∃ s2, parentLoop (removeExcl fp f) a ((s.pa a).filter s.isArt)
        { s with removed := ins a s.removed } = some s2 := by
      by_cases hnil : (s.pa a).filter s.isArt = []
      · rw [hnil]; exact ⟨_, rfl⟩
      · obtain ⟨q, qs, hq⟩ := List.exists_cons_of_ne_nil hnil
        have hqa := (hps q (by simp [hq])).2
        have haN : a < s0.bound := by
          apply hok.bnd
          intro h0
          have := (hok.sym q a).1 hqa
          simp [h0] at this
        exact parentLoop_some (removeExcl_post fp hok.sym hscan f) ih _ hps s.pa (by omega) haN
          (fun p hp => (List.mem_filter.1 hp).1) _ (fun i => List.Sublist.refl _) hi haR
    obtain ⟨s2, hs2⟩ := hloop
    obtain ⟨hc, hcut⟩ := parentLoop_post (removeExcl_post fp hok.sym hscan f) _ hps _ s2 hi haR hs2
    simp only [removeExcl]
    rw [hs2]
    simp only
    apply removeArtifact_some
    · intro p hp hpa
      exfalso
      refine hcut p ?_ hp
      rw [List.mem_filter]
      refine ⟨(hc.shrink.pa a).subset hp, ?_⟩
      have h1 := hc.inv.base.isArt
      have h2 := hi.base.isArt
      simp only at h2
      rw [h2, ← h1]; exact hpa
    · intro hf
      rw [hc.inv.base.prod]
      obtain ⟨hg, hart⟩ := hi.sound a haR
      refine hprod a hart ?_ hf
      cases hg with
      | self h => exact .inl h
      | noChild _ h _ _ => exact .inr (List.ne_nil_of_mem h)
      | noInput _ h _ _ _ => exact .inr (List.ne_nil_of_mem h)

end Verif.Graph
