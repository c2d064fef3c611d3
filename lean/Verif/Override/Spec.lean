import Verif.Override.Model
/-
What users rely on when they set properties on the command line.
-/

namespace Verif.Override.Spec

/-- A name in dotted notation. -/
def dotted (pre p : Str) : Str := pre ++ '.' :: p

/-- The names of properties have no dots. -/
def PropertyName (p : Str) : Prop := '.' ∉ p

/-- The values of a QVariantMap have distinct keys, in the order of the keys. -/
def Ordered (f : Flat) : Prop := f.Pairwise (fun a b => a.1 < b.1)

/-- The value the user gave for a key. -/
def given (f : Flat) (key : Str) : Option Val := (f.find? (fun e => decide (e.1 = key))).map (·.2)

/-- The value that a tree has for the property `p` of whatever `pre` stands for. -/
def Tree.value (t : Tree) (pre p : Str) : Option Val :=
  match t.find? (fun e => decide (e.1 = pre)) with
  | some (_, .map m) => given m p
  | _ => none

/-- The first of several keys for which the user gave a value decides. -/
def firstGiven (f : Flat) : List Str → Option Val
  | [] => none
  | k :: ks => match given f k with
    | some v => some v
    | none => firstGiven f ks

/-- What a property has after loading: what the user gave for it, converted to its
type, or what it had before. -/
def Effective (md : Mode) (v : Option Val) (before after : Item) (p : Str) (t : PType) : Prop :=
  match v with
  | none => after.cell p = before.cell p
  | some v => ∃ c, convert md.qt t v = some c ∧ after.cell p = some ⟨c, true⟩

/-- The keys by which users can set a property of a product. -/
def productKeys (product p : Str) : List Str := [dotted ("products.".toList ++ product) p]

/-- The keys for a project: its own one wins. -/
def projectKeys (project p : Str) : List Str :=
  [dotted ("projects.".toList ++ project) p, dotted "project".toList p]

/-- The keys for a module in a product: the one for the product wins; for qbs, the
short form comes next. -/
def moduleKeys (product module p : Str) : List Str :=
  dotted (dotted ("products.".toList ++ product) module) p ::
    ((if module = "qbs".toList then [dotted "qbs".toList p] else []) ++
      [dotted ("modules.".toList ++ module) p])

/-- The forms a key can have. -/
def Understood (key : Str) : Prop :=
  ∃ rest, key = "project.".toList ++ rest ∨ key = "projects.".toList ++ rest ∨
    key = "products.".toList ++ rest ∨ key = "modules.".toList ++ rest ∨
    key = "moduleProviders.".toList ++ rest ∨ key = "qbs.".toList ++ rest

/-- The items of a project, a product or a module. -/
inductive IsItem (pjs : List Project) (pds : List Product) : Item → Prop
  | project (p : Project) : p ∈ pjs → IsItem pjs pds p.item
  | product (p : Product) : p ∈ pds → IsItem pjs pds p.item
  | module (p : Product) (m : Str × Item) : p ∈ pds → m ∈ p.modules → IsItem pjs pds m.2

/-- Why a project can be rejected because of what was given on the command line. -/
inductive Reason (md : Mode) (f : Flat) (pjs : List Project) (pds : List Product) : Err → Prop
  /-- The key has none of the known forms. -/
  | key (k : Str) (v : Val) : (k, v) ∈ f → ¬ Understood k → Reason md f pjs pds (.keyNotUnderstood k)
  /-- The property is not declared. -/
  | property (pre p : Str) (v : Val) (it : Item) : (dotted pre p, v) ∈ f → IsItem pjs pds it →
      it.decl p = none → Reason md f pjs pds (.unknownProperty p)
  /-- The value does not have the type of the property. -/
  | type (pre p : Str) (v : Val) (it : Item) (t : PType) : (dotted pre p, v) ∈ f →
      IsItem pjs pds it → it.decl p = some t → convert md.qt t v = none →
      Reason md f pjs pds (.badType p)
  /-- There is a key for a project of this name. -/
  | project (n : Str) (rest : Str) (v : Val) : ("projects.".toList ++ n ++ rest, v) ∈ f →
      Reason md f pjs pds (.unknownProject n)
  /-- There is a key for a product of this name. -/
  | product (n : Str) (rest : Str) (v : Val) : ("products.".toList ++ n ++ rest, v) ∈ f →
      Reason md f pjs pds (.unknownProduct n)

end Verif.Override.Spec

namespace Verif.Override.Spec

/-- The maps that callers pass are QVariantMaps. -/
def CallOk : Call → Prop
  | .setOverriddenValues v => Ordered v
  | _ => True

/-- A call that changes the profile, the configuration name or the values given by
the user. -/
def IsSetter : Call → Prop
  | .setTopLevelProfile _ => True
  | .setConfigurationName _ => True
  | .setOverriddenValues _ => True
  | _ => False

/-- A call of finalBuildConfigurationTree(). -/
def IsFinalRead : Call → Prop
  | .readFinalTree => True
  | _ => False

end Verif.Override.Spec
