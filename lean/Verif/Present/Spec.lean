import Verif.Present.Model

/-! # Specification for which modules are present -/

namespace Verif.Present
open Verif.Version

/-- The list of modules is as C66 says: no two are the same, dependencies come first, and who depends on a module loads it. -/
structure WF (ms : List Mod) : Prop where
  ids : (ms.map (·.id)).Nodup
  first : ∀ a m b, ms = a ++ m :: b → ∀ x ∈ m.locals, ∃ d ∈ a, d.id = x.1 ∧ (d.name.head? = some "qbs" ∨ Loader.module m.id ∈ d.loaders)
  order : ∀ a m b, ms = a ++ m :: b → ∀ i, Loader.module i ∈ m.loaders → ∃ d ∈ b, d.id = i

/-- The module is there in the end. -/
def Present (s : St) (m : Mod) : Prop := m.id ∉ s.gone

/-- The product needs the module by way of modules that are present. The module `qbs` is always needed. -/
inductive Imported (ms : List Mod) (s : St) : Mod → Prop
  | base {m} : m.name.head? = some "qbs" → Imported ms s m
  | direct {m} : Loader.product ∈ m.loaders → Imported ms s m
  | indirect {m d} : d ∈ ms → Present s d → Imported ms s d → Loader.module d.id ∈ m.loaders → Imported ms s m

/-- Nothing is wrong with the module: it is there to begin with, it is not from a disabled product, its probes, its version and
its validation are fine in any case, and the same holds for the modules it requires. -/
inductive Healthy (e : Env) (ms : List Mod) (absent : List Nat) : Mod → Prop
  | intro {m} : m.id ∉ absent → m.disabled = false →
      (∀ g, e.probes m.id g = true ∧ m.range.accepts (e.version m.id g) = true ∧ e.valid m.id g = true) →
      (∀ i, (i, true) ∈ m.locals → ∃ d ∈ ms, d.id = i) → (∀ d ∈ ms, (d.id, true) ∈ m.locals → Healthy e ms absent d) →
      Healthy e ms absent m

/-- The product needs the module by way of modules nothing is wrong with. -/
inductive Wanted (e : Env) (ms : List Mod) (absent : List Nat) : Mod → Prop
  | direct {m} : Loader.product ∈ m.loaders → Wanted e ms absent m
  | indirect {m d} : d ∈ ms → Healthy e ms absent d → Wanted e ms absent d → Loader.module d.id ∈ m.loaders → Wanted e ms absent m

end Verif.Present
