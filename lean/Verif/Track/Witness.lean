import Verif.Track.Props
/-!
# C31: cases that meet the hypotheses, and changes that are not seen
-/
namespace Verif.Track

theorem find_of_nodup : ∀ {l : List Art}, (l.map (·.path)).Nodup → ∀ a ∈ l,
    l.find? (·.path == a.path) = some a
  | [], _, a, h => by cases h
  | b :: l, hn, a, h => by
    simp only [List.map_cons, List.nodup_cons] at hn
    rcases List.mem_cons.mp h with rfl | h
    · simp [List.find?]
    · have : b.path ≠ a.path := fun he => hn.1 (by rw [he]; exact List.mem_map_of_mem h)
      simp only [List.find?, beq_eq_false_iff_ne.mpr this]
      exact find_of_nodup hn.2 a h

theorem world_wf (a l : Product) (ha : a.name = "app") (hl : l.name = "lib")
    (hd : ∀ d ∈ a.deps, d = "lib") (hld : l.deps = []) (he : l.enabled = true)
    (hpa : (a.arts.map (·.path)).Nodup) (hpl : (l.arts.map (·.path)).Nodup) : (world a l).WF := by
  refine ⟨?_, ?_, ?_⟩
  · intro p hp
    simp only [world, List.mem_cons, List.not_mem_nil, or_false] at hp
    rcases hp with rfl | rfl
    · simp [World.product, world]
    · simp [World.product, world, ha, hl]
  · intro p hp _ d hdp
    simp only [world, List.mem_cons, List.not_mem_nil, or_false] at hp
    rcases hp with rfl | rfl
    · rw [hd d hdp]
      exact ⟨l, by simp [World.product, world, ha, hl], he⟩
    · rw [hld] at hdp; cases hdp
  · intro p hp
    simp only [world, List.mem_cons, List.not_mem_nil, or_false] at hp
    rcases hp with rfl | rfl
    · exact find_of_nodup hpa
    · exact find_of_nodup hpl

theorem world_app (a l : Product) (ha : a.name = "app") : (world a l).product "app" = some a := by
  simp [World.product, world, ha]

theorem world_lib (a l : Product) (ha : a.name = "app") (hl : l.name = "lib") :
    (world a l).product "lib" = some l := by
  simp [World.product, world, ha, hl]

theorem missed_probe {a l a2 l2 : Product} {q : Query}
    (wf1 : (world a l).WF) (wf2 : (world a2 l2).WF)
    (ha : a.name = "app") (ha2 : a2.name = "app") (hen : a.enabled = true) (hen2 : a2.enabled = true)
    (hart : ∃ x, (world a l).artifact "/b/main.o" "app" = some x)
    (hq : q.inScope start)
    (hno : needsRerun (world a2 l2) (record (world a l) ((q.mapAccess).elim true (fun _ => false)) 10
      q {}) = false)
    (hd : (world a2 l2).answer q ≠ (world a l).answer q) :
    Missed (world a l) (world a2 l2) 10 (probe q ((world a l).answer q)) start := by
  refine ⟨wf1, wf2, ?_, ?_, ?_, ?_, ?_, ?_, ?_⟩
  · rintro n rfl; exact ⟨a, world_app a l ha, hen⟩
  · rintro path p ⟨rfl, rfl⟩; exact ⟨rfl, hart⟩
  · rintro f rfl; exact ⟨5, 1, by simp [world], by decide⟩
  · intro n h; exact h.elim
  · rintro n rfl; exact ⟨a2, world_app a2 l2 ha2, hen2⟩
  · rw [run_probe _ _ _ _ _ _ _ hq]; exact hno
  · rw [run_probe _ _ _ _ _ _ _ hq, run_probe _ _ _ _ _ _ _ hq]
    simp [hd]

theorem set_ne {f g : String → Prop} (x : String) (hf : f x) (hg : ¬ g x) : Ans.set f ≠ Ans.set g := by
  intro h; cases h; exact hg hf

theorem set_ne' {f g : String → Prop} (x : String) (hf : ¬ f x) (hg : g x) : Ans.set f ≠ Ans.set g := by
  intro h; cases h; exact hf hg

/-! ## Non-vacuity -/

/-- `app` with another define, a new object file and a dependency less. -/
def app' : Product :=
  { app with arts := app.arts ++ [art "/b/new.o" ["obj"]], deps := [],
             mprops := fun _ _ => .undef }

theorem wfA : (world app lib).WF :=
  world_wf app lib rfl rfl (by decide) rfl rfl (by decide) (by decide)

theorem wfA' : (world app' lib).WF :=
  world_wf app' lib rfl rfl (by decide) rfl rfl (by decide) (by decide)

theorem startOk : ScopeOk (world app lib) 10 start := by
  refine ⟨?_, ?_, ?_, fun n h => h.elim⟩
  · rintro n rfl; exact ⟨app, world_app _ _ rfl, rfl⟩
  · rintro path p ⟨rfl, rfl⟩; exact ⟨rfl, art "/b/main.o" ["obj"], rfl⟩
  · rintro f rfl; exact ⟨5, 1, by simp [world], by decide⟩

theorem plain_of {p : Product} (h : ∀ a ∈ p.arts, a.target = none) : ∀ t ∈ p.allTags,
    ∃ a ∈ p.tagged t, a.target = none := by
  intro t ht
  obtain ⟨a, ha, hta⟩ := List.mem_flatMap.mp ht
  exact ⟨a, List.mem_filter.mpr ⟨ha, by simpa using hta⟩, h a ha⟩

theorem comparableA : Comparable (world app lib) (world app' lib) 10 := by
  have two : ∀ (a : Product) (n : String) (p : Product), a.name = "app" →
      (world a lib).product n = some p → (n = "app" ∧ p = a) ∨ (n = "lib" ∧ p = lib) := by
    intro a n p ha hp
    obtain ⟨hm, hn⟩ := product_mem hp
    simp only [world, List.mem_cons, List.not_mem_nil, or_false] at hm
    rcases hm with rfl | rfl
    · exact Or.inl ⟨hn.symm.trans ha, rfl⟩
    · exact Or.inr ⟨hn.symm, rfl⟩
  have targets : ∀ (a : Product), (∀ x ∈ a.arts, x.target = none) → a.name = "app" → ∀ n p,
      (world a lib).product n = some p → ∀ x ∈ p.arts, x.target = none := by
    intro a ha hn n p hp
    rcases two a n p hn hp with ⟨_, rfl⟩ | ⟨_, rfl⟩
    · exact ha
    · decide
  refine ⟨?_, ?_, ?_, ?_, ?_⟩
  · intro n p1 p2 key h1 h2 h3
    rcases two app n p1 rfl h1 with ⟨rfl, rfl⟩ | ⟨rfl, rfl⟩
    · rcases two app' _ p2 rfl h2 with ⟨_, rfl⟩ | ⟨h, _⟩
      · exact h3
      · exact absurd h (by decide)
    · rcases two app' _ p2 rfl h2 with ⟨h, _⟩ | ⟨_, rfl⟩
      · exact absurd h (by decide)
      · exact h3
  · intro n p1 p2 h1 h2 a1 m1 a2 m2 _
    rw [targets app (by decide) rfl n p1 h1 a1 m1, targets app' (by decide) rfl n p2 h2 a2 m2]
  · rintro w (rfl | rfl) p hp
    · exact plain_of (targets app (by decide) rfl _ p (wfA.unique p hp))
    · exact plain_of (targets app' (by decide) rfl _ p (wfA'.unique p hp))
  · intro n p1 p2 h1 h2
    rcases two app n p1 rfl h1 with ⟨rfl, rfl⟩ | ⟨rfl, rfl⟩
    · rcases two app' _ p2 rfl h2 with ⟨_, rfl⟩ | ⟨h, _⟩
      · exact ⟨by decide, by decide⟩
      · exact absurd h (by decide)
    · rcases two app' _ p2 rfl h2 with ⟨h, _⟩ | ⟨_, rfl⟩
      · exact absurd h (by decide)
      · exact ⟨by decide, by decide⟩
  · intro f m c h _
    exact ⟨m, h⟩

/-- Each kind of access that gives another answer in the later world makes the script run again. -/
example : ∀ q ∈ [Query.modProp "app" "cpp" "defines", .tagged "app" "obj", .deps "app"],
    needsRerun (world app' lib) (run (world app lib) 10 (probe q ((world app lib).answer q)) start
      (fun _ => false) {}).2 = true := by
  intro q hq
  have hin : q.inScope start := by
    simp only [List.mem_cons, List.not_mem_nil, or_false] at hq
    rcases hq with rfl | rfl | rfl <;> rfl
  have ht : Tracked (probe q ((world app lib).answer q)) := by
    refine Tracked.ask _ _ ?_ (fun a => ?_)
    · intro p m t h
      subst h
      simp at hq
    · split <;> exact Tracked.done _
  refine C31_changed_answer_reruns_partial wfA wfA' comparableA ht startOk ?_ _ (q := q) ?_ ?_
  · rintro n rfl; exact ⟨app', world_app _ _ rfl, rfl⟩
  · unfold probe asked; rw [if_pos hin]; exact List.mem_cons_self
  · simp only [List.mem_cons, List.not_mem_nil, or_false] at hq
    rcases hq with rfl | rfl | rfl
    · simp [World.answer, world_app, app, app']
    · refine set_ne "/b/new.o" ⟨app', world_app _ _ rfl, art "/b/new.o" ["obj"], ?_, rfl, rfl⟩ ?_
      · exact List.mem_filter.mpr ⟨by simp [app'], rfl⟩
      · rintro ⟨p, hp, a, h1, h2, h3⟩
        rw [world_app _ _ rfl] at hp; cases hp
        have := (List.mem_filter.mp h1).1
        simp [app, art] at this
        rcases this with rfl | rfl <;> exact absurd h3 (by decide)
    · intro h
      injection h with h _
      have := congrFun h "lib"
      simp [world_app, app, app'] at this

/-- A change of what a script has not used does not make it run again, and it needs not. -/
example : needsRerun (world app' lib) (run (world app lib) 10 (probe (.artProp "/b/main.o" "app" "cpp"
    "optimization") (.val (.atom 1))) start (fun _ => false) {}).2 = false := by
  rw [run_probe _ _ _ _ _ _ _ (show Query.inScope start (.artProp _ _ _ _) from ⟨rfl, rfl⟩)]
  rfl

/-! ## Changes that are not seen -/

/-- **C31 finding.** A script asks for a property its product does not have, and later the product has
it: the script is not run again (buildgraph.cpp 183-203 records only properties that are in the map). -/
theorem C31_new_product_property :
    Missed (world app lib) (world 
      { app with pprops := fun k => if k = "files" then some (.strs ["x.cpp"]) else app.pprops k } lib) 10
      (probe (.prodProp "app" "files") ((world app lib).answer (.prodProp "app" "files"))) start := by
  refine missed_probe wfA (world_wf _ lib rfl rfl (by decide) rfl rfl (by decide) (by decide))
    rfl rfl rfl rfl ⟨art "/b/main.o" ["obj"], rfl⟩ (show Query.inScope start (.prodProp "app" "files") from rfl) ?_ ?_
  · rfl
  · simp [World.answer, world_app, app]

/-- **C31 finding.** The artifacts of a module are not tracked: a script that uses
`product.cpp.artifacts["header"]` is not run again when there are more of them
(artifactsscriptvalue.cpp 138-188). -/
theorem C31_module_artifacts_not_tracked :
    Missed (world app lib) (world 
      { app with arts := app.arts ++ [art "/m/h.h" ["header"] (some "cpp")] } lib) 10
      (probe (.moduleTagged "app" "cpp" "header") ((world app lib).answer (.moduleTagged "app" "cpp" "header"))) start := by
  refine missed_probe wfA (world_wf _ lib rfl rfl (by decide) rfl rfl (by decide) (by decide))
    rfl rfl rfl rfl ⟨art "/b/main.o" ["obj"], rfl⟩ (show Query.inScope start (.moduleTagged "app" "cpp" "header") from rfl) ?_ ?_
  · rfl
  · refine set_ne "/m/h.h" ⟨_, world_app _ _ rfl, art "/m/h.h" ["header"] (some "cpp"), ?_, rfl, rfl⟩ ?_
    · exact List.mem_filter.mpr ⟨by simp, rfl⟩
    · rintro ⟨p, hp, a, h1, h2, h3⟩
      rw [world_app _ _ rfl] at hp; cases hp
      have := (List.mem_filter.mp h1).1
      simp [app, art] at this
      rcases this with rfl | rfl <;> exact absurd h3 (by decide)

/-- **C31 finding.** An artifact becomes the target of a module (group property
`filesAreTargets` in a module): a script that has used `product.artifacts` is not run again, although
the artifact is not in the map any more. -/
theorem C31_target_of_module :
    Missed (world app lib) (world 
      { app with arts := [art "/b/main.o" ["obj"], art "/b/app" ["application"] (some "cpp")] } lib) 10
      (probe (.tagged "app" "application") ((world app lib).answer (.tagged "app" "application"))) start := by
  refine missed_probe wfA (world_wf _ lib rfl rfl (by decide) rfl rfl (by decide) (by decide))
    rfl rfl rfl rfl ⟨art "/b/main.o" ["obj"], rfl⟩ (show Query.inScope start (.tagged "app" "application") from rfl) ?_ ?_
  · rfl
  · refine set_ne' "/b/app" ?_ ⟨_, world_app _ _ rfl, art "/b/app" ["application"], ?_, rfl, rfl⟩
    · rintro ⟨p, hp, a, h1, h2, h3⟩
      rw [world_app _ _ rfl] at hp; cases hp
      have := (List.mem_filter.mp h1).1
      simp [art] at this
      rcases this with rfl | rfl
      · exact absurd h3 (by decide)
      · cases h2
    · exact List.mem_filter.mpr ⟨by simp [app], rfl⟩

/-- **C31 finding.** A script enumerates the tags in `product.artifacts`. The only artifact with some
tag is replaced by a target of a module with that tag: the script is not run again, although the tag
is not in the map any more. -/
theorem C31_tag_of_module_targets :
    Missed (world app lib) (world 
      { app with arts := [art "/b/main.o" ["obj"], art "/m/tool" ["application"] (some "cpp")] } lib) 10
      (probe (.tags "app") ((world app lib).answer (.tags "app"))) start := by
  refine missed_probe wfA (world_wf _ lib rfl rfl (by decide) rfl rfl (by decide) (by decide))
    rfl rfl rfl rfl ⟨art "/b/main.o" ["obj"], rfl⟩ (show Query.inScope start (.tags "app") from rfl) ?_ ?_
  · rfl
  · refine set_ne' "application" ?_ ⟨_, world_app _ _ rfl, art "/b/app" ["application"], ?_, rfl⟩
    · rintro ⟨p, hp, a, h1, h2⟩
      rw [world_app _ _ rfl] at hp; cases hp
      obtain ⟨h1, h3⟩ := List.mem_filter.mp h1
      simp [art] at h1
      rcases h1 with rfl | rfl
      · exact absurd h3 (by decide)
      · cases h2
    · exact List.mem_filter.mpr ⟨by simp [app], rfl⟩

/-- **C31 finding.** The dependency on a product is replaced by one on a module of the same name: a
script that has used `product.dependencies` is not run again (requesteddependencies.cpp 47-58 puts
the names of both in one set). -/
theorem C31_product_replaced_by_module :
    Missed (world app lib) (world 
      { app with deps := [], modules := ["cpp", "lib"] } lib) 10
      (probe (.deps "app") ((world app lib).answer (.deps "app"))) start := by
  refine missed_probe wfA (world_wf _ lib rfl rfl (by decide) rfl rfl (by decide) (by decide))
    rfl rfl rfl rfl ⟨art "/b/main.o" ["obj"], rfl⟩ (show Query.inScope start (.deps "app") from rfl) ?_ ?_
  · rfl
  · intro h
    injection h with h _
    have := congrFun h "lib"
    simp [world_app, app] at this

/-- A project with the name of the product and another property "name". -/
def world2 (v : Val) : World :=
  { world app lib with projects := [⟨"app", fun k => if k = "name" then v else .undef⟩] }

open Classical in
/-- Uses `product.name` and `project.name`. -/
noncomputable def both : Prog :=
  .ask (.prodProp "app" "name") (fun _ => probe (.projProp "app" "name") (.val (.atom 0)))

def start2 : Scope := { start with projects := (· = "app") }

/-- **C31 finding.** A product and its project have the same name and a script uses the same
property of both. A change of the project's property is not noticed, since recorded properties are
compared without their kind (property.h 81-87). -/
theorem C31_project_named_like_product :
    Missed (world2 (.atom 0)) (world2 (.atom 1)) 10 both start2 := by
  have hrun : ∀ v, run (world2 v) 10 both start2 (fun _ => false) {} =
      (if v = .atom 0 then 0 else 1, record (world2 v) true 10 (.projProp "app" "name")
        (record (world2 v) true 10 (.prodProp "app" "name") {})) := by
    intro v
    unfold both run
    rw [if_pos (show Query.inScope start2 (.prodProp "app" "name") from rfl)]
    show run _ _ (probe _ _) start2 _ _ = _
    rw [run_probe _ _ _ _ _ _ _ (show Query.inScope start2 (.projProp "app" "name") from rfl)]
    simp [World.answer, world2, World.project, Query.mapAccess]
  have hw : ∀ v, (world2 v).WF := fun v => ⟨wfA.unique, wfA.deps, wfA.paths⟩
  refine ⟨hw _, hw _, ?_, ?_, ?_, ?_, ?_, ?_, ?_⟩
  · rintro n rfl; exact ⟨app, world_app app lib rfl, rfl⟩
  · rintro path p ⟨rfl, rfl⟩; exact ⟨rfl, art "/b/main.o" ["obj"], rfl⟩
  · rintro f rfl; exact ⟨5, 1, by simp [world2, world], by decide⟩
  · rintro n rfl; exact ⟨_, rfl⟩
  · rintro n rfl; exact ⟨app, world_app app lib rfl, rfl⟩
  · rw [hrun]; decide
  · rw [hrun, hrun]; decide

end Verif.Track
