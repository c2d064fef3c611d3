import Verif.Common.Sort
/-!
# Profiles

Model of src/lib/corelib/tools/profile.cpp 67-94 and 177-258.

Simplifications: values are strings (`QVariant::toString` is the identity,
`settingsValueToVariant` too). The stored settings of a profile, merged over the two scopes, are
one list of keys and values; the merging is the subject of C41. The assertions about clean names
only print a message and are left out.
-/
namespace Verif.Profile

abbrev Name := String
abbrev Key := String

/-- All profiles: those given by the project or on the command line (`m_profiles`) and those in
the settings. -/
structure Cfg where
  profiles : List (Name × List (Key × String))
  settings : List (Name × List (Key × String))

/-- The entry of an association list, `[]`/`none` if missing. -/
def assoc {β : Type} (l : List (String × β)) (k : String) : Option β :=
  match l.find? (fun e => e.1 == k) with
  | some e => some e.2
  | none => none

/-- profile.cpp 71: `m_values`. -/
def values (c : Cfg) (p : Name) : List (Key × String) := (assoc c.profiles p).getD []

/-- The settings below `profiles.<name>`. -/
def stored (c : Cfg) (p : Name) : List (Key × String) := (assoc c.settings p).getD []

/-- profile.h 76. -/
def fallbackName : Name := "none"

/-- stringconstants.h 71. -/
def baseProfileKey : Key := "baseProfile"

/-- profile.cpp 77-81 `exists`. -/
def exist (c : Cfg) (p : Name) : Bool :=
  p == fallbackName || !(values c p).isEmpty || !(stored c p).isEmpty

/-- profile.cpp 197-205 `localValue`. -/
def localValue (c : Cfg) (p : Name) (k : Key) : Option String :=
  match assoc (values c p) k with
  | some v => some v
  | none => assoc (stored c p) k

/-- profile.cpp 142-145 `baseProfile`. -/
def baseProfile (c : Cfg) (p : Name) : Name := (localValue c p baseProfileKey).getD ""

/-- What a lookup can end with. `fuel` is not a result of the code: it stands for not having
finished after the given number of steps. -/
inductive Res (α : Type) where
  | ok (a : α)
  | missing (profile base : Name)
  | cycle (chain : List Name)
  | fuel
deriving DecidableEq, Repr

/-- profile.cpp 212-226 `possiblyInheritedValue`, with `extendAndCheckProfileChain` (250-257);
`none` is the default value. -/
def inherited (c : Cfg) (k : Key) : Nat → List Name → Name → Res (Option String)
  | 0, _, _ => .fuel
  | f + 1, chain, p =>
    if p ∈ chain then .cycle (chain ++ [p])
    else match localValue c p k with
      | some v => .ok (some v)
      | none =>
        if baseProfile c p = "" then .ok none
        else if exist c (baseProfile c p) = false then .missing p (baseProfile c p)
        else inherited c k f (chain ++ [p]) (baseProfile c p)

/-- profile.cpp 232-234: the keys of one profile (`allKeysWithPrefix` for the settings). -/
def localKeys (c : Cfg) (p : Name) : List Key :=
  if (values c p).map (·.1) = [] then (stored c p).map (·.1) else (values c p).map (·.1)

/-- profile.cpp 243-245: `removeDuplicates`, `removeOne(baseProfile)`, `sort`. -/
def tidy (ks : List Key) : List Key :=
  Verif.Common.isort (fun a b => decide (a ≤ b)) (ks.eraseDups.erase baseProfileKey)

/-- profile.cpp 228-248 `allKeysInternal` with `KeySelectionRecursive`. -/
def allKeys (c : Cfg) : Nat → List Name → Name → Res (List Key)
  | 0, _, _ => .fuel
  | f + 1, chain, p =>
    if p ∈ chain then .cycle (chain ++ [p])
    else if baseProfile c p = "" then .ok (localKeys c p)
    else if exist c (baseProfile c p) = false then .missing p (baseProfile c p)
    else match allKeys c f (chain ++ [p]) (baseProfile c p) with
      | .ok ks => .ok (tidy (localKeys c p ++ ks))
      | .missing a b => .missing a b
      | .cycle ch => .cycle ch
      | .fuel => .fuel

/-- Enough steps for any lookup: the number of profiles that can exist, and some. -/
def enough (c : Cfg) : Nat := c.profiles.length + c.settings.length + 3

/-- `Profile::value` with the errors visible. -/
def value (c : Cfg) (p : Name) (k : Key) : Res (Option String) := inherited c k (enough c) [] p

/-- `Profile::allKeys(KeySelectionRecursive)`. -/
def keys (c : Cfg) (p : Name) : Res (List Key) := allKeys c (enough c) [] p

end Verif.Profile
