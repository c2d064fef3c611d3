import Verif.Params.Model

/-! # Specification for the parameters of dependencies -/

namespace Verif.Params

/-- This is in the map. -/
inductive Has : PM → String → Entry → Prop
  | leaf {k v r} : Has (.leaf k v r) k (.leaf v)
  | sub {k m r} : Has (.sub k m r) k (.map m)
  | skipLeaf {k v r k' e} : Has r k' e → Has (.leaf k v r) k' e
  | skipSub {k m r k' e} : Has r k' e → Has (.sub k m r) k' e

/-- A map has at most one entry for a name. This is so for every `QVariantMap`. -/
inductive WF : PM → Prop
  | nil : WF .nil
  | leaf {k v r} : (∀ e, ¬ Has r k e) → WF r → WF (.leaf k v r)
  | sub {k m r} : (∀ e, ¬ Has r k e) → WF m → WF r → WF (.sub k m r)

/-- The parameter at this path has this value. -/
inductive Sets : PM → Path → Leaf → Prop
  | here {m k v} : Has m k (.leaf v) → Sets m [k] v
  | inside {m k m' p v} : Has m k (.map m') → Sets m' p v → Sets m (k :: p) v

/-- At this path, there are further parameters, or none. -/
inductive Group : PM → Path → Prop
  | here {m k m'} : Has m k (.map m') → Group m [k]
  | inside {m k m' p} : Has m k (.map m') → Group m' p → Group m (k :: p)

/-- Says something about what is at this path: a value, a group, or that something above is a value. -/
def Mentions (m : PM) (p : Path) : Prop := Group m p ∨ ∃ q v, q <+: p ∧ Sets m q v

end Verif.Params
