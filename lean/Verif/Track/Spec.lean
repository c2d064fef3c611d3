import Verif.Track.Model
/-!
# Specification for C31: worlds and scripts the theorem is about
-/
namespace Verif.Track

/-- A resolved project: names are unique, dependencies exist and are enabled, the paths of a
product's artifacts are different. -/
structure World.WF (w : World) : Prop where
  unique : ∀ p ∈ w.products, w.product p.name = some p
  deps : ∀ p ∈ w.products, p.enabled = true → ∀ d ∈ p.deps,
    ∃ q, w.product d = some q ∧ q.enabled = true
  paths : ∀ p ∈ w.products, ∀ a ∈ p.arts, p.arts.find? (·.path == a.path) = some a

/-- What a script starts with exists, and imported files have not been changed since the script was
loaded. No project in scope has the name of a product (see `C31_project_named_like_product`). -/
structure ScopeOk (w : World) (now : Nat) (s : Scope) : Prop where
  products : ∀ n, s.products n → ∃ p, w.product n = some p ∧ p.enabled = true
  arts : ∀ path prod, s.arts path prod → s.products prod ∧ ∃ a, w.artifact path prod = some a
  files : ∀ f, s.files f → ∃ m c, w.files f = some (m, c) ∧ m ≤ now
  projects : ∀ n, s.projects n → w.product n = none

/-- The products a script starts with still exist in the later world, enabled: otherwise it is not
run at all. -/
def ScopeLater (w2 : World) (s : Scope) : Prop :=
  ∀ n, s.products n → ∃ p, w2.product n = some p ∧ p.enabled = true

open Classical in
/-- The accesses a script makes in a world. -/
noncomputable def asked (w : World) : Prog → Scope → List Query
  | .done _, _ => []
  | .ask q k, s =>
    if q.inScope s then q :: asked w (k (w.answer q)) (s.extend q (w.answer q))
    else asked w (k .invalid) s

/-- The script does not use the artifacts of modules (see `C31_module_artifacts_not_tracked`). -/
inductive Tracked : Prog → Prop where
  | done (n : Nat) : Tracked (.done n)
  | ask (q : Query) (k : Ans → Prog) : (∀ p m t, q ≠ .moduleTagged p m t) → (∀ a, Tracked (k a)) →
      Tracked (.ask q k)

/-- Changes from the world of the run to a later one that the code does not see; each of these
conditions is shown to be needed by a theorem in Props. -/
structure Comparable (w1 w2 : World) (now : Nat) : Prop where
  /-- A product does not get a property it did not have (see `C31_new_product_property`). -/
  pprops : ∀ n p1 p2 key, w1.product n = some p1 → w2.product n = some p2 →
    p1.pprops key = none → p2.pprops key = none
  /-- An artifact does not become, or cease to be, the target of a module
  (see `C31_target_of_module`). -/
  target : ∀ n p1 p2, w1.product n = some p1 → w2.product n = some p2 →
    ∀ a1 ∈ p1.arts, ∀ a2 ∈ p2.arts, a1.path = a2.path → (a1.target = none ↔ a2.target = none)
  /-- Each file tag of a product belongs to an artifact that is not the target of a module
  (see `C31_tag_of_module_targets`). -/
  plain : ∀ w, w = w1 ∨ w = w2 → ∀ p ∈ w.products, ∀ t ∈ p.allTags, ∃ a ∈ p.tagged t, a.target = none
  /-- A name does not change from a product's to a module's or vice versa
  (see `C31_product_replaced_by_module`). -/
  names : ∀ n p1 p2, w1.product n = some p1 → w2.product n = some p2 →
    (∀ x ∈ p1.deps, x ∉ p2.modules) ∧ (∀ x ∈ p1.modules, x ∉ p2.deps)
  /-- A file that was changed after the run has a later time stamp. -/
  files : ∀ f m c, w2.files f = some (m, c) → m ≤ now → ∃ m', w1.files f = some (m', c)

/-- A run whose result would be different in the later world, which nothing in its record shows:
the script starts with objects that exist, yet it is not run again. -/
structure Missed (w1 w2 : World) (now : Nat) (prog : Prog) (s : Scope) : Prop where
  wf1 : w1.WF
  wf2 : w2.WF
  products : ∀ n, s.products n → ∃ p, w1.product n = some p ∧ p.enabled = true
  arts : ∀ path prod, s.arts path prod → s.products prod ∧ ∃ a, w1.artifact path prod = some a
  files : ∀ f, s.files f → ∃ m c, w1.files f = some (m, c) ∧ m ≤ now
  projects : ∀ n, s.projects n → ∃ p, w1.project n = some p
  later : ScopeLater w2 s
  noRerun : needsRerun w2 (run w1 now prog s (fun _ => false) {}).2 = false
  differs : (run w2 now prog s (fun _ => false) {}).1 ≠ (run w1 now prog s (fun _ => false) {}).1

end Verif.Track
