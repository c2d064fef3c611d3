import Verif.Touch.Model
import Verif.UpToDate.Spec
/-!
# What `qbs update-timestamps` is documented to do

"Update the timestamps of all build artifacts, causing the next builds of the project to do nothing
if no updates to source files happen in between" (the help text of the command). These definitions
do not use the functions of the model.
-/
namespace Verif.Touch

open Verif.UpToDate

/-- The product takes part: it is enabled, and it was named or no product was named. -/
def Chosen (names : List Nat) (ps : List Product) (p : Product) : Prop :=
  p ∈ ps ∧ p.enabled = true ∧ (names = [] ∨ p.name ∈ names)

/-- The generated files are the outputs of the transformers, and each belongs to an enabled
product. -/
structure Owned (g : Graph) (generated : Art → Bool) (ps : List Product) : Prop where
  gen : ∀ a, generated a = true ↔ ∃ t, a ∈ g.outputs t
  owner : ∀ t a, a ∈ g.outputs t → ∃ p ∈ ps, p.enabled = true ∧ a ∈ p.nodes

/-- The files a build has to leave behind are there: all outputs that are always updated, and at
least one output of every transformer. -/
def OutputsThere (g : Graph) (onDisk : Art → Bool) : Prop :=
  ∀ t ∈ g.transformers,
    (∀ a ∈ g.outputs t, g.alwaysUpdated a = true → onDisk a = true) ∧
    ∃ a ∈ g.outputs t, onDisk a = true

end Verif.Touch
