import Verif.Track.Step
/-!
# C31: a script is run again iff something it has used changed
-/
namespace Verif.Track

theorem record_inv {w : World} {now : Nat} {s : Scope} {r : Rec} {flag : Bool} {q : Query}
    (hs : ScopeOk w now s) (hi : Inv w now r) (hq : q.inScope s) :
    Inv w now (record w flag now q r) := by
  by_cases hm : ∃ p m t, q = .moduleTagged p m t
  · obtain ⟨prod, m, tag, rfl⟩ := hm
    obtain ⟨p, hp, hpe⟩ := hs.products prod hq
    have hp' : w.product p.name = some p := by rw [(product_mem hp).2]; exact hp
    have hr : record w flag now (.moduleTagged prod m tag) r =
        { r with arts := setAllArtifactTags p (!flag) r.arts } := by
      simp only [record, hp]
    rw [hr]
    exact ⟨hi.props, hi.viaArt, hi.deps, setAll_inv hi.arts hp' hpe _, hi.imports, hi.exported⟩
  · exact (record_step hs hi hq (fun p m t h => hm ⟨p, m, t, h⟩)).1

theorem scope_extend {w : World} (hw : w.WF) {now : Nat} {s : Scope} {q : Query}
    (hs : ScopeOk w now s) (hq : q.inScope s) : ScopeOk w now (s.extend q (w.answer q)) := by
  cases q with
  | deps prod =>
    refine ⟨?_, ?_, hs.files, hs.projects⟩
    · rintro n (h | ⟨p, hp, hd⟩)
      · exact hs.products n h
      · obtain ⟨p', hp', he⟩ := hs.products prod hq
        rw [hp] at hp'; cases hp'
        exact hw.deps p (product_mem hp).1 he n hd
    · intro path p h
      obtain ⟨h1, h2⟩ := hs.arts path p h
      exact ⟨Or.inl h1, h2⟩
  | tagged prod tag =>
    refine ⟨hs.products, ?_, hs.files, hs.projects⟩
    rintro path p (h | ⟨rfl, p', hp, a, h1, h2, h3⟩)
    · exact hs.arts path p h
    · refine ⟨hq, a, ?_⟩
      simp only [World.artifact, hp, ← h3]
      exact hw.paths p' (product_mem hp).1 a (List.mem_filter.mp h1).1
  | _ => exact hs

theorem later_extend {w : World} (hw : w.WF) {s : Scope} {q : Query}
    (hs : ScopeLater w s) (hq : q.inScope s) : ScopeLater w (s.extend q (w.answer q)) := by
  cases q with
  | deps prod =>
    rintro n (h | ⟨p, hp, hd⟩)
    · exact hs n h
    · obtain ⟨p', hp', he⟩ := hs prod hq
      rw [hp] at hp'; cases hp'
      exact hw.deps p (product_mem hp).1 he n hd
  | _ => exact hs

theorem run_inv {w : World} (hw : w.WF) {now : Nat} : ∀ (prog : Prog) (s : Scope)
    (flags : String → Bool) (r : Rec), ScopeOk w now s → Inv w now r →
    Inv w now (run w now prog s flags r).2 := by
  intro prog
  induction prog with
  | done n => intro s flags r _ hi; exact hi
  | ask q k ih =>
    intro s flags r hs hi
    unfold run
    by_cases hq : q.inScope s
    · rw [if_pos hq]
      exact ih _ _ _ _ (scope_extend hw hs hq) (record_inv hs hi hq)
    · rw [if_neg hq]
      exact ih _ _ _ _ hs hi

theorem run_mono {w1 w2 : World} (h1 : w1.WF) (h2 : w2.WF) {now : Nat} {prog : Prog}
    (ht : Tracked prog) : ∀ (s : Scope) (flags : String → Bool) (r : Rec), ScopeOk w1 now s →
    Inv w1 now r → Ok w2 (run w1 now prog s flags r).2 → Ok w2 r := by
  induction ht with
  | done n => intro s flags r _ _ hok; exact hok
  | ask q k hnm _ ih =>
    intro s flags r hs hi hok
    unfold run at hok
    by_cases hq : q.inScope s
    · rw [if_pos hq] at hok
      obtain ⟨a, b⟩ := record_step (flag := (q.mapAccess).elim true flags) hs hi hq hnm
      exact (b w2 h2 (ih _ _ _ _ (scope_extend h1 hs hq) a hok)).1
    · rw [if_neg hq] at hok
      exact ih _ _ _ _ hs hi hok

theorem run_sound {w1 w2 : World} (h1 : w1.WF) (h2 : w2.WF) {now : Nat} (hc : Comparable w1 w2 now)
    {now' : Nat} {prog : Prog} (ht : Tracked prog) : ∀ (s : Scope)
    (flags flags' : String → Bool) (r r' : Rec), ScopeOk w1 now s → ScopeLater w2 s → Inv w1 now r →
    Ok w2 (run w1 now prog s flags r).2 →
    (run w2 now' prog s flags' r').1 = (run w1 now prog s flags r).1 := by
  induction ht with
  | done n => intro s flags flags' r r' _ _ _ hok; rfl
  | ask q k hnm htk ih =>
    intro s flags flags' r r' hs hl hi hok
    unfold run at hok
    unfold run
    by_cases hq : q.inScope s
    · rw [if_pos hq] at hok
      rw [if_pos hq, if_pos hq]
      simp only at hok ⊢
      obtain ⟨a, b⟩ := record_step (flag := (q.mapAccess).elim true flags) hs hi hq hnm
      have hext := scope_extend h1 hs hq
      have hlx := later_extend h2 hl hq
      have c2 := (b w2 h2 (run_mono h1 h2 (htk _) _ _ _ hext a hok)).2 hc hl
      rw [c2] at hlx ⊢
      exact ih _ _ _ _ _ _ hext hlx a hok
    · rw [if_neg hq] at hok
      rw [if_neg hq, if_neg hq]
      exact ih _ _ _ _ _ _ hs hl hi hok

theorem run_asked {w1 w2 : World} (h1 : w1.WF) (h2 : w2.WF) {now : Nat} (hc : Comparable w1 w2 now)
    {prog : Prog} (ht : Tracked prog) : ∀ (s : Scope) (flags : String → Bool) (r : Rec),
    ScopeOk w1 now s → ScopeLater w2 s → Inv w1 now r → Ok w2 (run w1 now prog s flags r).2 →
    ∀ q ∈ asked w1 prog s, w2.answer q = w1.answer q := by
  induction ht with
  | done n => intro s flags r _ _ _ _ q hq; cases hq
  | ask q k hnm htk ih =>
    intro s flags r hs hl hi hok q' hq'
    unfold run at hok
    unfold asked at hq'
    by_cases hq : q.inScope s
    · rw [if_pos hq] at hok hq'
      simp only at hok
      obtain ⟨a, b⟩ := record_step (flag := (q.mapAccess).elim true flags) hs hi hq hnm
      have hext := scope_extend h1 hs hq
      have hlx := later_extend h2 hl hq
      have c2 := (b w2 h2 (run_mono h1 h2 (htk _) _ _ _ hext a hok)).2 hc hl
      rw [c2] at hlx
      rcases List.mem_cons.mp hq' with rfl | hq'
      · exact c2
      · exact ih _ _ _ _ hext hlx a hok q' hq'
    · rw [if_neg hq] at hok hq'
      exact ih _ _ _ _ hs hl hi hok q' hq'

/-- **C31.** Something a script was told when it ran is different now: it is run again. -/
theorem C31_changed_answer_reruns_partial {w1 w2 : World} (h1 : w1.WF) (h2 : w2.WF) {now : Nat}
    (hc : Comparable w1 w2 now) {prog : Prog} (ht : Tracked prog) {s : Scope}
    (hs : ScopeOk w1 now s) (hl : ScopeLater w2 s) (flags : String → Bool) {q : Query}
    (hq : q ∈ asked w1 prog s) (hd : w2.answer q ≠ w1.answer q) :
    needsRerun w2 (run w1 now prog s flags {}).2 = true := by
  refine Classical.byContradiction (fun hno => hd ?_)
  have hok := (needsRerun_false_iff w2 h2 _).mp (by simpa using hno)
  exact run_asked h1 h2 hc ht s flags {} hs hl (Inv.empty w1 now) hok q hq

/-- **C31.** If a script is not run again, running it would give the same result. -/
theorem C31_not_rerun_same_result_partial {w1 w2 : World} (h1 : w1.WF) (h2 : w2.WF) {now : Nat}
    (hc : Comparable w1 w2 now) {prog : Prog} (ht : Tracked prog) {s : Scope}
    (hs : ScopeOk w1 now s) (hl : ScopeLater w2 s) (flags flags' : String → Bool)
    (hno : needsRerun w2 (run w1 now prog s flags {}).2 = false) (now' : Nat) :
    (run w2 now' prog s flags' {}).1 = (run w1 now prog s flags {}).1 :=
  run_sound h1 h2 hc ht s flags flags' {} {} hs hl (Inv.empty w1 now)
    ((needsRerun_false_iff w2 h2 _).mp hno)

/-- **C31.** If nothing has changed, no script is run again, whatever it used. -/
theorem C31_unchanged_not_rerun {w : World} (hw : w.WF) {now : Nat} (prog : Prog) {s : Scope}
    (hs : ScopeOk w now s) (flags : String → Bool) :
    needsRerun w (run w now prog s flags {}).2 = false :=
  (needsRerun_false_iff w hw _).mpr
    (Inv.ok hw (run_inv hw prog s flags {} hs (Inv.empty w now)))

/-- **C31.** Commands are run again iff their script needs to be run again or an environment
variable relevant for one of them has another value. -/
theorem C31_environment (w : World) (env : String → String) (r : Rec) (cmds : List EnvRec) :
    commandsNeedRerun w env r cmds = true ↔
      needsRerun w r = true ∨ ∃ c ∈ cmds, ∃ kv ∈ c, env kv.1 ≠ kv.2 := by
  simp only [commandsNeedRerun, Bool.or_eq_true, List.any_eq_true, bne_iff_ne, ne_eq]
  constructor
  · rintro (h | ⟨c, hc, kv, hk, hne⟩)
    · exact Or.inl h
    · exact Or.inr ⟨c, hc, kv, hk, fun h => hne h.symm⟩
  · rintro (h | ⟨c, hc, kv, hk, hne⟩)
    · exact Or.inl h
    · exact Or.inr ⟨c, hc, kv, hk, fun h => hne h.symm⟩

/-! ## Concrete worlds -/

def art (path : String) (tags : List String) (target : Option String := none) : Art :=
  ⟨path, tags, fun m k => if m = "cpp" ∧ k = "optimization" then .atom 1 else .undef, target⟩

def app : Product :=
  ⟨"app", true, [art "/b/main.o" ["obj"], art "/b/app" ["application"]], ["lib"], ["cpp"],
    fun k => if k = "name" then some (.strs ["app"]) else none,
    fun m k => if m = "cpp" ∧ k = "defines" then .strs ["A"] else .undef,
    fun _ _ _ => .undef, 0⟩

def lib : Product :=
  ⟨"lib", true, [art "/b/lib.a" ["staticlibrary"]], [], ["cpp"], fun _ => none, fun _ _ => .undef,
    fun _ _ _ => .undef, 0⟩

def world (a l : Product) : World :=
  ⟨[a, l], [⟨"app", fun k => if k = "name" then .strs ["app"] else .undef⟩],
    fun f => if f = "/s/helper.js" then some (5, 1) else none⟩

/-- The script of a rule of `app` with `main.o` as input. -/
def start : Scope :=
  ⟨fun _ => False, (· = "app"), fun path p => path = "/b/main.o" ∧ p = "app", (· = "/s/helper.js")⟩

open Classical in
/-- A script whose result shows whether the answer is `x`. -/
noncomputable def probe (q : Query) (x : Ans) : Prog :=
  .ask q (fun a => if a = x then .done 0 else .done 1)

theorem run_probe (w : World) (now : Nat) (q : Query) (x : Ans) (s : Scope) (flags : String → Bool)
    (r : Rec) (hq : q.inScope s) : run w now (probe q x) s flags r =
      (open Classical in if w.answer q = x then 0 else 1,
        record w ((q.mapAccess).elim true flags) now q r) := by
  unfold probe run
  rw [if_pos hq]
  simp only
  split <;> rfl

end Verif.Track
