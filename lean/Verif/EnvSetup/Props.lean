import Verif.EnvSetup.LemMore

namespace Verif.EnvSetup

variable {N E : Type} [DecidableEq N]

/-- **C88 (order of the scripts).** For the modules of any product there is an order in which every
module occurs exactly once, after all modules it depends on, such that setting up an environment
amounts to running the scripts of all modules in this order, starting from the given environment; in
particular setting up ends, and fails exactly if one of the scripts fails. -/
theorem C88_order (ms : List (Module N E)) (hp : Proper ms) :
    ∃ order, GoodOrder ms order ∧ ∃ depth₀, ∀ depth, depth₀ ≤ depth → ∀ k, HasScript k ms →
      ∀ cur env, setupEnvironment k depth ms cur env = runAll k order env := by
  obtain ⟨d, order, hg, ht⟩ := sorted_exists hp
  exact ⟨order, hg, d, fun depth hd k hk cur env => setup_eq hp hg hk (ht depth hd) cur env⟩

/-- **C88 (histories).** In every history of builds, started shells and requests for environments in
which the requests for the build environment are made on top of the project's environment, each
operation uses or returns what the scripts make of the environment it starts from, whatever happened
before. Missing from the full property: requests for the build environment on top of other
environments, see `C88_asking_changes_builds`. -/
theorem C88_history_partial [DecidableEq E] (empty project run : E) (ms : List (Module N E))
    (hp : Proper ms) (hk : ∀ k, HasScript k ms) :
    ∃ order, GoodOrder ms order ∧ ∃ depth₀, ∀ depth, depth₀ ≤ depth → ∀ ops : List (Op E),
      (∀ env, Op.askBuild env ∈ ops → env = project) →
      answers empty depth project ms ⟨empty, run⟩ ops = ops.map (wanted project order) := by
  obtain ⟨d, order, hg, ht⟩ := sorted_exists hp
  exact ⟨order, hg, d, fun depth hd ops hops =>
    answers_eq hp hg hk (ht depth hd) ops hops _ (Or.inl rfl)⟩

/-- **C88 (products).** When products are built whose build environments have not been set up yet,
each gets what its own scripts make of the project's environment: the scripts of one product have no
influence on the environment of another one. -/
theorem C88_products_independent [DecidableEq E] (empty env : E) (ps : List (List (Module N E)))
    (hp : ∀ ms ∈ ps, Proper ms) (hk : ∀ ms ∈ ps, HasScript .build ms) :
    ∃ order : List (Module N E) → List (Module N E), (∀ ms ∈ ps, GoodOrder ms (order ms)) ∧
      ∃ depth₀, ∀ depth, depth₀ ≤ depth → ∀ es,
        prepareProducts empty depth env (ps.map (·, empty)) = some es ↔
          ps.map (fun ms => runAll .build (order ms) env) = es.map some := by
  have hex : ∃ order : List (Module N E) → List (Module N E), (∀ ms ∈ ps, GoodOrder ms (order ms)) ∧
      ∃ depth₀, ∀ depth, depth₀ ≤ depth → ∀ ms ∈ ps,
        setupForBuild empty depth ms empty env = runAll .build (order ms) env := by
    have h1 : ∀ ms, ∃ order : List (Module N E), ms ∈ ps → GoodOrder ms order ∧ ∃ depth₀, ∀ depth,
        depth₀ ≤ depth → setupForBuild empty depth ms empty env = runAll .build order env := by
      intro ms
      by_cases h : ms ∈ ps
      · obtain ⟨o, hg, d, hd⟩ := C88_order ms (hp ms h)
        refine ⟨o, fun _ => ⟨hg, d, fun depth hdep => ?_⟩⟩
        unfold setupForBuild
        rw [if_neg (by simp)]
        exact hd depth hdep .build (hk ms h) empty env
      · exact ⟨[], fun h' => absurd h' h⟩
    refine ⟨fun ms => Classical.choose (h1 ms), fun ms h => (Classical.choose_spec (h1 ms) h).1, ?_⟩
    have h2 : ∀ l : List (List (Module N E)), (∀ ms ∈ l, ms ∈ ps) → ∃ depth₀, ∀ depth,
        depth₀ ≤ depth → ∀ ms ∈ l, setupForBuild empty depth ms empty env =
          runAll .build (Classical.choose (h1 ms)) env := by
      intro l
      induction l with
      | nil => intro _; exact ⟨0, by simp⟩
      | cons a l ih =>
        intro hl
        obtain ⟨d1, hd1⟩ := ih (fun x hx => hl x (by simp [hx]))
        obtain ⟨d2, hd2⟩ := (Classical.choose_spec (h1 a) (hl a (by simp))).2
        refine ⟨max d1 d2, fun depth hdep ms hms => ?_⟩
        rcases List.mem_cons.1 hms with h | h
        · subst h; exact hd2 depth (by omega)
        · exact hd1 depth (by omega) ms h
    exact h2 ps (fun _ h => h)
  obtain ⟨order, hg, d, hd⟩ := hex
  refine ⟨order, hg, d, fun depth hdep es => ?_⟩
  rw [prepare_eq, List.map_map]
  have : ps.map ((fun p : List (Module N E) × E => setupForBuild empty depth p.1 p.2 env) ∘ (·, empty))
      = ps.map (fun ms => runAll .build (order ms) env) :=
    List.map_congr_left (fun ms hms => hd depth hdep ms hms)
  rw [this]

/-- **C88 finding.** The number of steps for sorting the modules is not bounded by the number of
modules and dependencies: modules that have been sorted already are visited again. There are products
with `2 * n + 2` modules, each with at most two dependencies, for which more than `2 ^ n` modules are
visited. -/
theorem C88_exponential (n : Nat) :
    ∃ ms : List (Module Nat E), Proper ms ∧ ms.length = 2 * n + 2 ∧ (∀ m ∈ ms, m.deps.length ≤ 2) ∧
      ∀ depth, n + 1 ≤ depth → 2 ^ n ≤ visits (children ms) depth (roots ms) := by
  refine ⟨ladder (fun _ => none) (n + 1), ladder_proper _ _, ?_, ?_, ?_⟩
  · simp [ladder]; omega
  · intro m hm
    rw [(ladder_mem hm).2.1]
    by_cases h : m.name < 2 <;> simp [h]
  · intro depth hd
    have h1 := ladder_visits (E := E) (fun _ => none) (n + 1) n (by omega) 0 (by omega) depth hd
    obtain ⟨k, rfl⟩ : ∃ k, depth = k + 1 := ⟨depth - 1, by omega⟩
    refine Nat.le_trans h1 ?_
    have := le_sum_map (fun m => 1 + visits (children (ladder (E := E) (fun _ => none) (n + 1))) k
      (children (ladder (E := E) (fun _ => none) (n + 1)) m)) (ladder_root (E := E) (fun _ => none) n)
    simpa [visits] using this

/-- **C88 finding.** Asking for the build environment of a product on top of some environment makes
later builds of the product use that environment instead of the project's: for every product whose
scripts do not fail and do not give an empty environment. -/
theorem C88_asking_changes_builds [DecidableEq E] (empty project env run e : E)
    (ms : List (Module N E)) (hp : Proper ms) (hk : HasScript .build ms) :
    ∃ order, GoodOrder ms order ∧ ∃ depth₀, ∀ depth, depth₀ ≤ depth →
      runAll .build order env = some e → e ≠ empty →
      answers empty depth project ms ⟨empty, run⟩ [.askBuild env, .build] = [some e, some e] := by
  obtain ⟨d, order, hg, ht⟩ := sorted_exists hp
  refine ⟨order, hg, d, fun depth hd he hne => ?_⟩
  have h1 : setupForBuild empty depth ms empty env = some e := by
    unfold setupForBuild
    rw [if_neg (by simp), setup_eq hp hg hk (ht depth hd), he]
  have h2 : setupForBuild empty depth ms e project = some e := by
    unfold setupForBuild
    rw [if_pos hne]
  simp [answers, step, h1, h2]

end Verif.EnvSetup
