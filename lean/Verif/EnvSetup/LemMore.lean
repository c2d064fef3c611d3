import Verif.EnvSetup.Lem

namespace Verif.EnvSetup

variable {N E : Type} [DecidableEq N]

theorem setup_eq {ms order : List (Module N E)} {depth : Nat} {k : Kind} (hp : Proper ms)
    (hg : GoodOrder ms order) (hk : HasScript k ms)
    (ht : topSort (children ms) depth (roots ms) [] = some (order.map (·.name), order.map (·.name)))
    (cur env : E) : setupEnvironment k depth ms cur env = runAll k order env := by
  obtain ⟨m, hm, hs⟩ := hk
  have hany : ms.any (fun m => (m.script k).isSome) = true := List.any_eq_true.2 ⟨m, hm, hs⟩
  unfold setupEnvironment
  rw [if_pos hany, ht]
  exact runScripts_eq k hp.distinct order (fun x hx => hg.perm.subset hx) env

/-- The stored build environment is the initial one or what the scripts make of the project's. -/
def BuildOk (empty project : E) (order : List (Module N E)) (s : State E) : Prop :=
  s.build = empty ∨ runAll .build order project = some s.build

theorem answers_eq [DecidableEq E] {empty project : E} {ms order : List (Module N E)} {depth : Nat}
    (hp : Proper ms) (hg : GoodOrder ms order) (hk : ∀ k, HasScript k ms)
    (ht : topSort (children ms) depth (roots ms) [] = some (order.map (·.name), order.map (·.name)))
    (ops : List (Op E)) (hops : ∀ env, Op.askBuild env ∈ ops → env = project) (s : State E)
    (hs : BuildOk empty project order s) :
    answers empty depth project ms s ops = ops.map (wanted project order) := by
  induction ops generalizing s with
  | nil => rfl
  | cons op ops ih =>
    have hops' : ∀ env, Op.askBuild env ∈ ops → env = project :=
      fun env h => hops env (by simp [h])
    have hb : setupForBuild empty depth ms s.build project = runAll .build order project := by
      unfold setupForBuild
      by_cases h : s.build ≠ empty
      · rw [if_pos h]
        rcases hs with hs | hs
        · exact absurd hs h
        · exact hs.symm
      · rw [if_neg h]
        exact setup_eq hp hg (hk _) ht _ _
    have hstep : (step empty depth project ms s .build).2 = runAll .build order project ∧
        BuildOk empty project order (step empty depth project ms s .build).1 := by
      unfold step
      rw [hb]
      cases h : runAll .build order project with
      | none => exact ⟨rfl, hs⟩
      | some e => exact ⟨rfl, Or.inr h⟩
    have key : (step empty depth project ms s op).2 = wanted project order op ∧
        BuildOk empty project order (step empty depth project ms s op).1 := by
      cases op with
      | build => exact hstep
      | askBuild env =>
        have : env = project := hops env (by simp)
        subst this
        exact hstep
      | askRun env config =>
        have hr := setup_eq hp hg (hk (.run config)) ht s.run env
        simp only [step, hr, wanted]
        cases h : runAll (.run config) order env with
        | none => exact ⟨rfl, hs⟩
        | some e => exact ⟨rfl, hs⟩
    simp only [answers, List.map_cons, key.1, ih hops' _ key.2]

theorem prepare_eq [DecidableEq E] (empty : E) (depth : Nat) (env : E)
    (ps : List (List (Module N E) × E)) (es : List E) :
    prepareProducts empty depth env ps = some es ↔
      ps.map (fun p => setupForBuild empty depth p.1 p.2 env) = es.map some := by
  induction ps generalizing es with
  | nil =>
    simp only [prepareProducts, Option.some.injEq, List.map_nil]
    constructor
    · intro h; simp [← h]
    · intro h
      cases es with
      | nil => rfl
      | cons _ _ => simp at h
  | cons p ps ih =>
    simp only [prepareProducts, List.map_cons]
    cases h : setupForBuild empty depth p.1 p.2 env with
    | none =>
      simp only [reduceCtorEq, false_iff]
      cases es <;> simp
    | some e =>
      cases h2 : prepareProducts empty depth env ps with
      | none =>
        simp only [Option.map_none, reduceCtorEq, false_iff]
        intro h3
        cases es with
        | nil => simp at h3
        | cons a es =>
          simp only [List.map_cons, List.cons.injEq] at h3
          have := (ih es).2 h3.2
          rw [h2] at this
          cases this
      | some l =>
        have hl := (ih l).1 h2
        simp only [Option.map_some, Option.some.injEq]
        constructor
        · intro e'; subst e'; simp [hl]
        · intro h3
          cases es with
          | nil => simp at h3
          | cons a es =>
            simp only [List.map_cons, List.cons.injEq, Option.some.injEq] at h3
            have := (ih es).2 h3.2
            rw [h2] at this
            rw [h3.1, Option.some.inj this]

/-! ### The ladder -/

theorem ladder_names (script : Kind → Option (E → Option E)) (n : Nat) :
    (ladder script n).map (·.name) = List.range (2 * n) := by
  unfold ladder
  rw [List.map_map]
  exact (List.map_congr_left (fun _ _ => rfl)).trans (List.map_id _)

theorem ladder_mem {script : Kind → Option (E → Option E)} {n : Nat} {m : Module Nat E}
    (h : m ∈ ladder script n) : m.name < 2 * n ∧
      m.deps = (if m.name < 2 then [] else [2 * (m.name / 2) - 2, 2 * (m.name / 2) - 1]) ∧
      m.script = script := by
  obtain ⟨i, hi, rfl⟩ := List.mem_map.1 h
  exact ⟨by simpa using hi, rfl, rfl⟩

theorem ladder_proper (script : Kind → Option (E → Option E)) (n : Nat) :
    Proper (ladder script n) where
  distinct := by rw [ladder_names]; exact List.nodup_range
  closed := by
    intro m hm d hd
    obtain ⟨h1, h2, _⟩ := ladder_mem hm
    rw [ladder_names]
    rw [h2] at hd
    by_cases h : m.name < 2
    · simp [h] at hd
    · simp only [h, if_false, List.mem_cons, List.not_mem_nil, or_false] at hd
      simp only [List.mem_range]
      omega
  acyclic := by
    refine ⟨fun i => i, ?_⟩
    intro m hm d hd
    obtain ⟨h1, h2, _⟩ := ladder_mem hm
    rw [h2] at hd
    by_cases h : m.name < 2
    · simp [h] at hd
    · simp only [h, if_false, List.mem_cons, List.not_mem_nil, or_false] at hd
      show d < m.name
      omega

theorem ladder_children (script : Kind → Option (E → Option E)) (n i : Nat) (hi : i < 2 * n) :
    children (ladder script n) i =
      if i < 2 then [] else [2 * (i / 2) - 2, 2 * (i / 2) - 1] := by
  have hin : (Module.mk i (if i < 2 then [] else [2 * (i / 2) - 2, 2 * (i / 2) - 1]) script : Module Nat E) ∈ ladder script n :=
    List.mem_map.2 ⟨i, by simpa using hi, rfl⟩
  have := find_nodup (ladder_proper script n).distinct hin
  unfold children
  rw [show lookup (ladder script n) i = _ from this]

theorem ladder_visits (script : Kind → Option (E → Option E)) (n : Nat) :
    ∀ l, l < n → ∀ j, j < 2 → ∀ depth, l + 1 ≤ depth →
      2 ^ l ≤ visits (children (ladder script n)) depth [2 * l + j] := by
  intro l
  induction l with
  | zero =>
    intro _ j _ depth hd
    obtain ⟨k, rfl⟩ : ∃ k, depth = k + 1 := ⟨depth - 1, by omega⟩
    simp only [visits, List.map_cons, List.map_nil, List.sum_cons, List.sum_nil]
    omega
  | succ l ih =>
    intro hl j hj depth hd
    obtain ⟨k, rfl⟩ : ∃ k, depth = k + 1 := ⟨depth - 1, by omega⟩
    have h1 := ih (by omega) 0 (by omega) k (by omega)
    have h2 := ih (by omega) 1 (by omega) k (by omega)
    have hc : children (ladder script n) (2 * (l + 1) + j) = [2 * l + 0, 2 * l + 1] := by
      rw [ladder_children script n _ (by omega), if_neg (by omega)]
      congr 1
      · omega
      · congr 1
        omega
    obtain ⟨k', rfl⟩ : ∃ k', k = k' + 1 := ⟨k - 1, by omega⟩
    simp only [visits, List.map_cons, List.map_nil, List.sum_cons, List.sum_nil] at h1 h2 ⊢
    simp only [hc, List.map_cons, List.map_nil, List.sum_cons, List.sum_nil]
    rw [Nat.pow_succ]
    omega

theorem le_sum_map {α : Type} (f : α → Nat) {l : List α} {a : α} (h : a ∈ l) :
    f a ≤ (l.map f).sum := by
  induction l with
  | nil => simp at h
  | cons b l ih =>
    simp only [List.map_cons, List.sum_cons]
    rcases List.mem_cons.1 h with h | h
    · subst h; omega
    · have := ih h; omega

theorem ladder_root (script : Kind → Option (E → Option E)) (n : Nat) :
    2 * n ∈ roots (ladder script (n + 1)) := by
  refine List.mem_filter.2 ⟨?_, ?_⟩
  · rw [ladder_names]; simp only [List.mem_range]; omega
  · unfold hasParent
    simp only [Bool.not_eq_true', List.any_eq_false, decide_eq_true_eq]
    intro m hm hd
    obtain ⟨h1, h2, _⟩ := ladder_mem hm
    rw [h2] at hd
    by_cases h : m.name < 2
    · simp [h] at hd
    · simp only [h, if_false, List.mem_cons, List.not_mem_nil, or_false] at hd
      omega

end Verif.EnvSetup
