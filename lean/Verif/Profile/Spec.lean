import Verif.Profile.Model
/-!
# What inheritance of profiles means
-/
namespace Verif.Profile

/-- What a profile itself says about a key: the project or command line wins over the settings. -/
def own (c : Cfg) (p : Name) (k : Key) : Option String :=
  (((c.profiles.find? (·.1 == p)).bind fun e => e.2.find? (·.1 == k)).or
   ((c.settings.find? (·.1 == p)).bind fun e => e.2.find? (·.1 == k))).map (·.2)

/-- The `n`-th ancestor of `p`. -/
def ancestor (c : Cfg) (p : Name) : Nat → Name
  | 0 => p
  | n + 1 => baseProfile c (ancestor c p n)

/-- The first `n` profiles of the chain from `p` all have an existing base profile. -/
def Chain (c : Cfg) (p : Name) (n : Nat) : Prop :=
  ∀ i < n, baseProfile c (ancestor c p i) ≠ "" ∧ exist c (ancestor c p (i + 1)) = true

/-- The first `n` profiles of the chain from `p` do not define `k`. -/
def Undefined (c : Cfg) (p : Name) (k : Key) (n : Nat) : Prop :=
  ∀ i < n, localValue c (ancestor c p i) k = none

end Verif.Profile
