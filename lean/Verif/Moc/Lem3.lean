import Verif.Moc.Lem2

namespace Verif.Moc

/-! ### Lists -/

theorem modify_split {α : Type} (g : α → α) (es : List α) (i : Nat) :
    (∃ a e b, es = a ++ e :: b ∧ es[i]? = some e ∧ es.modify i g = a ++ g e :: b) ∨
      es.modify i g = es := by
  induction es generalizing i with
  | nil => right; simp
  | cons x es ih =>
    cases i with
    | zero => left; exact ⟨[], x, es, rfl, rfl, by simp⟩
    | succ i =>
      rcases ih i with ⟨a, e, b, h1, h2, h3⟩ | h
      · left; exact ⟨x :: a, e, b, by simp [h1], by simpa using h2, by simp [h3]⟩
      · right; simp [h]

theorem erase_split {α : Type} (es : List α) (i : Nat) :
    (∃ a e b, es = a ++ e :: b ∧ es[i]? = some e ∧ es.eraseIdx i = a ++ b) ∨ es.eraseIdx i = es := by
  induction es generalizing i with
  | nil => right; simp
  | cons x es ih =>
    cases i with
    | zero => left; exact ⟨[], x, es, rfl, rfl, by simp⟩
    | succ i =>
      rcases ih i with ⟨a, e, b, h1, h2, h3⟩ | h
      · left; exact ⟨x :: a, e, b, by simp [h1], by simpa using h2, by simp [h3]⟩
      · right; simp [h]

/-! ### The state between builds -/

/-- The generated code that is included somewhere. -/
def Incl (es : List Entry) (b : Str) : Prop := ∃ s ∈ files es, SourceFile s ∧ IncludesMoc s b

theorem incl_iff (es : List Entry) (b : Str) :
    Incl es b ↔ ∃ e ∈ es, SourceFile e.file ∧ IncludesMoc e.file b := by
  unfold Incl files
  constructor
  · rintro ⟨s, hs, h⟩
    obtain ⟨e, he, rfl⟩ := List.mem_map.mp hs
    exact ⟨e, he, h⟩
  · rintro ⟨e, he, h⟩
    exact ⟨_, List.mem_map_of_mem he, h⟩

structure EntryOk (e : Entry) : Prop where
  plain : PlainTags e.file
  cover : SourceFile e.file → (∃ b, IncludesMoc e.file b) → auxiliary .hpp e.file = true
  scan : ∀ sc, e.scan = some sc → (e.stale = false → sc = scanFile e.file) ∧
    (SourceFile e.file → ∀ b, b ∈ sc.included ↔ IncludesMoc e.file b)

/-- What a rule created for a file is still right. -/
def OutOk (cfg : Cfg) (I : Str → Prop) (e : Entry) : Prop :=
  ∀ r, input cfg r e.file = true → e.fresh r = false →
    ∃ inc : List Str, (r = .hpp → ∀ b, b ∈ inc ↔ I b) ∧
      e.out r = outputs cfg e.file (some (scanFile e.file)) inc

def Inv (cfg : Cfg) (es : List Entry) : Prop :=
  ∀ e ∈ es, EntryOk e ∧ OutOk cfg (Incl es) e

theorem scanEntry_file (e : Entry) : (scanEntry e).file = e.file := by
  unfold scanEntry; split <;> rfl

theorem scanEntry_fresh (e : Entry) : (scanEntry e).fresh = e.fresh := by
  unfold scanEntry; split <;> rfl

theorem scanEntry_out (e : Entry) : (scanEntry e).out = e.out := by
  unfold scanEntry; split <;> rfl

theorem scanEntry_ok {e : Entry} (h : EntryOk e) : EntryOk (scanEntry e) := by
  unfold scanEntry
  split
  · refine ⟨h.plain, h.cover, ?_⟩
    intro sc hsc
    simp only [Option.some.injEq] at hsc
    subst hsc
    exact ⟨fun _ => rfl, fun hs b => scan_included h.plain hs b⟩
  · exact h

theorem scanEntry_scan {e : Entry} (h : EntryOk e) :
    (scanEntry e).scan = some (scanFile e.file) := by
  unfold scanEntry
  split
  · rfl
  · next hn =>
    rw [not_or] at hn
    cases hs : e.scan with
    | none => exact absurd hs hn.1
    | some sc =>
      rw [((h.scan sc hs).1 (by simpa using hn.2))]

theorem scanEntry_outOk {cfg : Cfg} {I : Str → Prop} {e : Entry} (h : OutOk cfg I e) :
    OutOk cfg I (scanEntry e) := by
  intro r
  rw [scanEntry_file, scanEntry_fresh, scanEntry_out]
  exact h r

theorem outOk_congr {cfg : Cfg} {I J : Str → Prop} (hIJ : ∀ b, I b ↔ J b) {e : Entry}
    (h : OutOk cfg I e) : OutOk cfg J e := by
  intro r hi hf
  obtain ⟨inc, h1, h2⟩ := h r hi hf
  exact ⟨inc, fun hr b => (h1 hr b).trans (hIJ b), h2⟩

theorem gather_mem (es : List Entry) (b : Str) :
    b ∈ gather es ↔ ∃ e ∈ es, SourceFile e.file ∧ ∃ sc, e.scan = some sc ∧ b ∈ sc.included := by
  unfold gather
  rw [List.mem_flatMap]
  constructor
  · rintro ⟨e, he, h⟩
    split at h
    · next hs =>
      refine ⟨e, he, (isSource_iff _).mp hs, ?_⟩
      cases hsc : e.scan with
      | none => rw [hsc] at h; cases h
      | some sc => rw [hsc] at h; exact ⟨sc, rfl, h⟩
    · cases h
  · rintro ⟨e, he, hs, sc, hsc, hb⟩
    refine ⟨e, he, ?_⟩
    rw [if_pos ((isSource_iff _).mpr hs), hsc]
    exact hb

theorem due_scanEntry (cfg : Cfg) (r : Rule) (e : Entry) : due cfg r (scanEntry e) = due cfg r e := by
  unfold due; rw [scanEntry_file, scanEntry_fresh]

/-- The first half of an application of a rule. -/
def scanAll (cfg : Cfg) (r : Rule) (es : List Entry) : List Entry :=
  es.map (fun e => if due cfg r e || auxiliary r e.file then scanEntry e else e)

theorem scanAll_incl (cfg : Cfg) (r : Rule) (es : List Entry) (b : Str) :
    Incl (scanAll cfg r es) b ↔ Incl es b := by
  have : files (scanAll cfg r es) = files es := by
    unfold files scanAll
    rw [List.map_map]
    apply List.map_congr_left
    intro e _
    simp only [Function.comp]
    split
    · exact scanEntry_file e
    · rfl
  unfold Incl; rw [this]

theorem scanAll_inv {cfg : Cfg} {r : Rule} {es : List Entry} (h : Inv cfg es) :
    Inv cfg (scanAll cfg r es) := by
  intro e' he'
  obtain ⟨e, he, rfl⟩ := List.mem_map.mp he'
  have ⟨h1, h2⟩ := h e he
  have h3 : OutOk cfg (Incl (scanAll cfg r es)) e :=
    outOk_congr (fun b => (scanAll_incl cfg r es b).symm) h2
  split
  · exact ⟨scanEntry_ok h1, scanEntry_outOk h3⟩
  · exact ⟨h1, h3⟩

theorem gather_scanAll {cfg : Cfg} {es : List Entry} (h : Inv cfg es) (b : Str) :
    b ∈ gather (scanAll cfg .hpp es) ↔ Incl es b := by
  rw [gather_mem, ← scanAll_incl cfg .hpp es, incl_iff]
  constructor
  · rintro ⟨e, he, hs, sc, hsc, hb⟩
    exact ⟨e, he, hs, (((scanAll_inv h e he).1.scan sc hsc).2 hs b).mp hb⟩
  · rintro ⟨e', he', hs, hb⟩
    obtain ⟨e, he, rfl⟩ := List.mem_map.mp he'
    have hfile : (if (due cfg .hpp e || auxiliary .hpp e.file) = true then scanEntry e else e).file
        = e.file := by
      split
      · exact scanEntry_file e
      · rfl
    rw [hfile] at hs hb
    have ha := (h e he).1.cover hs ⟨b, hb⟩
    have hsc := scanEntry_scan (h e he).1
    refine ⟨_, List.mem_map.mpr ⟨e, he, by simp [ha]⟩, by rw [scanEntry_file]; exact hs, _, hsc, ?_⟩
    exact (scan_included (h e he).1.plain hs b).mpr hb

theorem apply_eq (cfg : Cfg) (r : Rule) (es : List Entry) (h : es.any (due cfg r) = true) :
    apply cfg r es = (scanAll cfg r es).map
      (fun e => if due cfg r e then run cfg r (gather (scanAll cfg r es)) e else e) := by
  unfold apply
  rw [if_pos h]
  rfl

theorem apply_files (cfg : Cfg) (r : Rule) (es : List Entry) : files (apply cfg r es) = files es := by
  by_cases h : es.any (due cfg r) = true
  · rw [apply_eq cfg r es h]
    unfold files scanAll
    rw [List.map_map, List.map_map]
    apply List.map_congr_left
    intro e _
    simp only [Function.comp]
    split <;> (first | rfl | skip) <;> split <;> simp [run, scanEntry_file]
  · unfold apply; rw [if_neg h]

theorem apply_inv {cfg : Cfg} {r : Rule} {es : List Entry} (h : Inv cfg es) :
    Inv cfg (apply cfg r es) := by
  have hI : ∀ b, Incl (apply cfg r es) b ↔ Incl es b := by
    intro b; unfold Incl; rw [apply_files]
  by_cases hd : es.any (due cfg r) = true
  · intro e'' he''
    suffices H : EntryOk e'' ∧ OutOk cfg (Incl es) e'' from
      ⟨H.1, outOk_congr (fun b => (hI b).symm) H.2⟩
    rw [apply_eq cfg r es hd] at he''
    obtain ⟨e', he', rfl⟩ := List.mem_map.mp he''
    have ⟨h1, h2⟩ := scanAll_inv (r := r) h e' he'
    have h2 : OutOk cfg (Incl es) e' := outOk_congr (scanAll_incl cfg r es) h2
    split
    · next hdue =>
      refine ⟨⟨h1.plain, h1.cover, h1.scan⟩, ?_⟩
      intro q hi hf
      by_cases hq : q = r
      · subst hq
        refine ⟨gather (scanAll cfg q es), ?_, ?_⟩
        · rintro rfl b; exact gather_scanAll h b
        · have hs : e'.scan = some (scanFile e'.file) := by
            obtain ⟨e, he, rfl⟩ := List.mem_map.mp he'
            have hde : due cfg q e = true := by
              have : due cfg q (if (due cfg q e || auxiliary q e.file) = true then scanEntry e else e)
                  = due cfg q e := by
                split
                · exact due_scanEntry cfg q e
                · rfl
              rw [← this]; exact hdue
            rw [if_pos (by simp [hde]), scanEntry_scan (h e he).1, scanEntry_file]
          simp [run, hs]
      · have hf' : e'.fresh q = false := by simpa [run, hq] using hf
        obtain ⟨inc, a, b⟩ := h2 q hi hf'
        exact ⟨inc, a, by simpa [run, hq] using b⟩
    · exact ⟨h1, h2⟩
  · have : apply cfg r es = es := by unfold apply; rw [if_neg hd]
    rw [this]; exact h

/-- Afterwards the rule is done with all its inputs. -/
theorem apply_done (cfg : Cfg) (r : Rule) (es : List Entry) :
    ∀ e ∈ apply cfg r es, input cfg r e.file = true → e.fresh r = false := by
  intro e'' he'' hi
  by_cases hd : es.any (due cfg r) = true
  · rw [apply_eq cfg r es hd] at he''
    obtain ⟨e', he', rfl⟩ := List.mem_map.mp he''
    split
    · simp [run]
    · next hn =>
      rw [if_neg hn] at hi
      simpa [due, hi] using hn
  · have : apply cfg r es = es := by unfold apply; rw [if_neg hd]
    rw [this] at he''
    simp only [Bool.not_eq_true, List.any_eq_false] at hd
    have := hd e'' he''
    simpa [due, hi] using this

theorem covered_aux {f : File} (h : Covered f) (hs : SourceFile f) (hb : ∃ b, IncludesMoc f b) :
    auxiliary .hpp f = true := by
  have ⟨h1, h2⟩ := h hs hb
  simp only [auxiliary, Bool.and_eq_true, Bool.or_eq_true, List.contains_iff_mem, Bool.not_eq_true']
  exact ⟨h1, by simpa using h2⟩

theorem refresh_ok {e : Entry} (h : EntryOk e) : EntryOk (refresh e) := ⟨h.plain, h.cover, h.scan⟩

theorem step_inv {cfg : Cfg} {es : List Entry} {ev : Event} (h : Inv cfg es) (hh : ev.Harmless es) :
    Inv cfg (step cfg es ev) := by
  cases ev with
  | add f =>
    simp only [step]
    intro e he
    rcases List.mem_append.mp he with he | he
    · obtain ⟨x, hx, rfl⟩ := List.mem_map.mp he
      exact ⟨refresh_ok (h x hx).1, fun r _ hf => by cases hf⟩
    · rw [List.mem_singleton] at he
      subst he
      refine ⟨⟨hh.1, fun hs hb => covered_aux hh.2 hs hb, ?_⟩, ?_⟩
      · intro sc hsc; cases hsc
      · intro r _ hf; cases hf
  | edit i c =>
    simp only [step]
    rcases modify_split (fun e : Entry =>
      { e with file := { e.file with content := c }, stale := true, fresh := fun _ => true }) es i with
      ⟨a, e, b, h1, h2, h3⟩ | h0
    · rw [h3]
      have hk := hh e h2
      have hI : ∀ x, Incl es x ↔ Incl (a ++ { e with file := { e.file with content := c }, stale := true, fresh := fun _ => true } :: b) x := by
        intro x
        rw [incl_iff, incl_iff, h1]
        simp only [List.mem_append, List.mem_cons, or_and_right, exists_or, exists_eq_left]
        have : (SourceFile e.file ∧ IncludesMoc e.file x) ↔
            (SourceFile { e.file with content := c } ∧ IncludesMoc { e.file with content := c } x) := by
          constructor
          · rintro ⟨p, q⟩; exact ⟨p, (hk p x).mpr q⟩
          · rintro ⟨p, q⟩; exact ⟨p, (hk p x).mp q⟩
        rw [this]
      have he : e ∈ es := by rw [h1]; simp
      have hmem : ∀ x, x ∈ a ∨ x ∈ b → x ∈ es := by
        intro x hx; rw [h1]; rcases hx with hx | hx <;> simp [hx]
      intro x hx
      rcases List.mem_append.mp hx with hx | hx
      · exact ⟨(h x (hmem x (.inl hx))).1, outOk_congr hI (h x (hmem x (.inl hx))).2⟩
      rcases List.mem_cons.mp hx with rfl | hx
      · refine ⟨⟨(h e he).1.plain, ?_, ?_⟩, ?_⟩
        · rintro hs ⟨y, hy⟩
          exact (h e he).1.cover hs ⟨y, (hk hs y).mp hy⟩
        · intro sc hsc
          refine ⟨fun hf => (by cases hf), fun hs y => ?_⟩
          exact (((h e he).1.scan sc hsc).2 hs y).trans (hk hs y).symm
        · intro r _ hf; cases hf
      · exact ⟨(h x (hmem x (.inr hx))).1, outOk_congr hI (h x (hmem x (.inr hx))).2⟩
    · rw [h0]; exact h
  | retag i tags => exact absurd hh (by simp [Event.Harmless])
  | remove i =>
    intro e he
    obtain ⟨x, hx, rfl⟩ := List.mem_map.mp he
    exact ⟨refresh_ok (h x (List.mem_of_mem_eraseIdx hx)).1, fun r _ hf => by cases hf⟩
  | scan i =>
    simp only [step]
    rcases modify_split scanEntry es i with ⟨a, e, b, h1, h2, h3⟩ | h0
    · rw [h3]
      have he : e ∈ es := by rw [h1]; simp
      have hI : ∀ x, Incl es x ↔ Incl (a ++ scanEntry e :: b) x := by
        intro x
        rw [incl_iff, incl_iff, h1]
        simp only [List.mem_append, List.mem_cons, or_and_right, exists_or, exists_eq_left,
          scanEntry_file]
      intro x hx
      have hmem : ∀ x, x ∈ a ∨ x ∈ b → x ∈ es := by
        intro x hx; rw [h1]; rcases hx with hx | hx <;> simp [hx]
      rcases List.mem_append.mp hx with hx | hx
      · exact ⟨(h x (hmem x (.inl hx))).1, outOk_congr hI (h x (hmem x (.inl hx))).2⟩
      rcases List.mem_cons.mp hx with rfl | hx
      · exact ⟨scanEntry_ok (h e he).1, scanEntry_outOk (outOk_congr hI (h e he).2)⟩
      · exact ⟨(h x (hmem x (.inr hx))).1, outOk_congr hI (h x (hmem x (.inr hx))).2⟩
    · rw [h0]; exact h
  | apply r => exact apply_inv h

theorem steps_inv {cfg : Cfg} {es : List Entry} {evs : List Event} (h : Inv cfg es)
    (hh : Harmless cfg es evs) : Inv cfg (steps cfg es evs) := by
  induction evs generalizing es with
  | nil => exact h
  | cons ev evs ih => exact ih (step_inv h hh.1) hh.2

/-- Before the first build nothing is known. -/
def Untouched (e : Entry) : Prop := e.scan = none ∧ ∀ r, e.fresh r = true

theorem setup_untouched {cfg : Cfg} {es : List Entry} {evs : List Event}
    (h : ∀ e ∈ es, Untouched e) (hs : ∀ ev ∈ evs, ev.Setup) :
    ∀ e ∈ steps cfg es evs, Untouched e := by
  induction evs generalizing es with
  | nil => exact h
  | cons ev evs ih =>
    refine ih ?_ (fun x hx => hs x (List.mem_cons_of_mem _ hx))
    have hev := hs ev List.mem_cons_self
    cases ev with
    | add f =>
      intro e he
      rcases List.mem_append.mp he with he | he
      · obtain ⟨x, hx, rfl⟩ := List.mem_map.mp he
        exact ⟨(h x hx).1, fun _ => rfl⟩
      · rw [List.mem_singleton] at he; subst he; exact ⟨rfl, fun _ => rfl⟩
    | edit i c =>
      simp only [step]
      rcases modify_split (fun e : Entry =>
        { e with file := { e.file with content := c }, stale := true, fresh := fun _ => true }) es i with
        ⟨a, e, b, h1, h2, h3⟩ | h0
      · rw [h3]
        intro x hx
        have he : e ∈ es := by rw [h1]; simp
        rcases List.mem_append.mp hx with hx | hx
        · exact h x (by rw [h1]; simp [hx])
        rcases List.mem_cons.mp hx with rfl | hx
        · exact ⟨(h e he).1, fun _ => rfl⟩
        · exact h x (by rw [h1]; simp [hx])
      · rw [h0]; exact h
    | retag i tags =>
      simp only [step]
      rcases modify_split (fun e : Entry =>
        { e with file := { e.file with tags := tags }, fresh := fun _ => true }) es i with
        ⟨a, e, b, h1, h2, h3⟩ | h0
      · rw [h3]
        intro x hx
        have he : e ∈ es := by rw [h1]; simp
        rcases List.mem_append.mp hx with hx | hx
        · exact h x (by rw [h1]; simp [hx])
        rcases List.mem_cons.mp hx with rfl | hx
        · exact ⟨(h e he).1, fun _ => rfl⟩
        · exact h x (by rw [h1]; simp [hx])
      · rw [h0]; exact h
    | remove i =>
      intro e he
      obtain ⟨x, hx, rfl⟩ := List.mem_map.mp he
      exact ⟨(h x (List.mem_of_mem_eraseIdx hx)).1, fun _ => rfl⟩
    | scan i => exact absurd hev (by simp [Event.Setup])
    | apply r => exact absurd hev (by simp [Event.Setup])

theorem setup_inv {cfg : Cfg} {es : List Entry} (h : ∀ e ∈ es, Untouched e)
    (hp : ∀ f ∈ files es, PlainTags f)
    (hc : ∀ f ∈ files es, SourceFile f → (∃ b, IncludesMoc f b) → auxiliary .hpp f = true) :
    Inv cfg es := by
  intro e he
  have hf : e.file ∈ files es := List.mem_map_of_mem he
  refine ⟨⟨hp _ hf, hc _ hf, ?_⟩, ?_⟩
  · intro sc hsc; rw [(h e he).1] at hsc; cases hsc
  · intro r _ hr; rw [(h e he).2 r] at hr; cases hr

/-! ### Without conditions on the changes -/

/-- A result of the scanner that is not out of date is the current one. -/
def Known (e : Entry) : Prop := ∀ sc, e.scan = some sc → e.stale = false → sc = scanFile e.file

theorem scanned {e : Entry} (h : Known e) : (scanEntry e).scan = some (scanFile e.file) := by
  unfold scanEntry
  split
  · rfl
  · next hn =>
    rw [not_or] at hn
    cases hs : e.scan with
    | none => exact absurd hs hn.1
    | some sc => rw [h sc hs (by simpa using hn.2)]

theorem scanEntry_known {e : Entry} (h : Known e) : Known (scanEntry e) := by
  intro sc hsc _
  rw [scanned h] at hsc
  rw [scanEntry_file]
  exact (Option.some.inj hsc).symm

theorem step_known {cfg : Cfg} {es : List Entry} {ev : Event} (h : ∀ e ∈ es, Known e)
    (hev : ∀ i tags, ev ≠ .retag i tags) : ∀ e ∈ step cfg es ev, Known e := by
  have key : ∀ (g : Entry → Entry) (i : Nat), (∀ e, Known e → Known (g e)) →
      ∀ e ∈ es.modify i g, Known e := by
    intro g i hg e he
    rcases modify_split g es i with ⟨a, x, b, h1, _, h3⟩ | h0
    · rw [h3] at he
      rcases List.mem_append.mp he with he | he
      · exact h e (by rw [h1]; simp [he])
      rcases List.mem_cons.mp he with rfl | he
      · exact hg x (h x (by rw [h1]; simp))
      · exact h e (by rw [h1]; simp [he])
    · rw [h0] at he; exact h e he
  cases ev with
  | add f =>
    intro e he
    rcases List.mem_append.mp he with he | he
    · obtain ⟨x, hx, rfl⟩ := List.mem_map.mp he
      exact h x hx
    · rw [List.mem_singleton] at he; subst he; intro sc hsc; cases hsc
  | edit i c => exact key _ i (fun e _ sc _ hf => by cases hf)
  | retag i tags => exact absurd rfl (hev i tags)
  | remove i =>
    intro e he
    obtain ⟨x, hx, rfl⟩ := List.mem_map.mp he
    exact h x (List.mem_of_mem_eraseIdx hx)
  | scan i => exact key _ i (fun e he => scanEntry_known he)
  | apply q =>
    intro e'' he''
    simp only [step] at he''
    by_cases hd : es.any (due cfg q) = true
    · rw [apply_eq cfg q es hd] at he''
      obtain ⟨e', he', rfl⟩ := List.mem_map.mp he''
      have h' : Known e' := by
        obtain ⟨e, he, rfl⟩ := List.mem_map.mp he'
        split
        · exact scanEntry_known (h e he)
        · exact h e he
      split
      · exact h'
      · exact h'
    · have : apply cfg q es = es := by unfold apply; rw [if_neg hd]
      rw [this] at he''
      exact h e'' he''

theorem steps_known {cfg : Cfg} {es : List Entry} {evs : List Event} (h : ∀ e ∈ es, Known e)
    (hev : ∀ i tags, .retag i tags ∉ evs) : ∀ e ∈ steps cfg es evs, Known e := by
  induction evs generalizing es with
  | nil => exact h
  | cons ev evs ih =>
    refine ih (step_known h ?_) (fun i t hm => hev i t (List.mem_cons_of_mem _ hm))
    rintro i t rfl
    exact hev i t List.mem_cons_self

theorem gather_known (cfg : Cfg) {es : List Entry} (h : ∀ e ∈ es, Known e)
    (hp : ∀ f ∈ files es, PlainTags f)
    (hc : ∀ f ∈ files es, SourceFile f → (sCpp ∈ f.tags ∨ sObjcpp ∈ f.tags) ∧ sUnmocable ∉ f.tags)
    (b : Str) :
    b ∈ gather (scanAll cfg .hpp es) ↔ ∃ s ∈ files es, SourceFile s ∧ IncludesMoc s b := by
  have aux : ∀ e ∈ es, SourceFile e.file → auxiliary .hpp e.file = true := by
    intro e he hs
    have ⟨h1, h2⟩ := hc _ (List.mem_map_of_mem he) hs
    simp only [auxiliary, Bool.and_eq_true, Bool.or_eq_true, List.contains_iff_mem,
      Bool.not_eq_true']
    exact ⟨h1, by simpa using h2⟩
  have hx := incl_iff es b
  unfold Incl at hx
  rw [gather_mem, hx]
  constructor
  · rintro ⟨e', he', hs, sc, hsc, hb⟩
    obtain ⟨e, he, rfl⟩ := List.mem_map.mp he'
    have hs' : SourceFile e.file := by
      split at hs
      · rwa [scanEntry_file] at hs
      · exact hs
    rw [if_pos (by simp [aux e he hs']), scanned (h e he)] at hsc
    cases hsc
    exact ⟨e, he, hs', (scan_included (hp _ (List.mem_map_of_mem he)) hs' b).mp hb⟩
  · rintro ⟨e, he, hs, hb⟩
    refine ⟨scanEntry e, List.mem_map.mpr ⟨e, he, by simp [aux e he hs]⟩, by rw [scanEntry_file]; exact hs,
      _, scanned (h e he), ?_⟩
    exact (scan_included (hp _ (List.mem_map_of_mem he)) hs b).mpr hb

end Verif.Moc
