import Verif.Tags.Model
/-!
# What a product's groups and file taggers mean

Independent of the resolver: where the groups are, which of them are active, which files they
list, and which tags those files have.
-/
namespace Verif.Tags

/-- A group together with the groups around it, outermost first. -/
structure Place where
  outer : List GData
  d : GData
  deriving DecidableEq

/-- The groups from the outermost one to the group itself. -/
def Place.path (c : Place) : List GData := c.outer ++ [c.d]

mutual

/-- The groups in an item, in the order of the text.  Groups inside a group with `fileTagsFilter`
do not count (see the finding `C96_filter_children`). -/
def placesI (outer : List GData) : GItem → List Place
  | .tagger _ => []
  | .group d cs => ⟨outer, d⟩ :: (if d.filter = [] then placesL (outer ++ [d]) cs else [])

/-- The groups in a list of items. -/
def placesL (outer : List GData) : List GItem → List Place
  | [] => []
  | i :: is => placesI outer i ++ placesL outer is

end

mutual

/-- The file taggers in an item, with the groups around them. -/
def taggersI (outer : List GData) : GItem → List (List GData × TaggerItem)
  | .tagger t => [(outer, t)]
  | .group d cs => if d.filter = [] then taggersL (outer ++ [d]) cs else []

/-- The file taggers in a list of items. -/
def taggersL (outer : List GData) : List GItem → List (List GData × TaggerItem)
  | [] => []
  | i :: is => taggersI outer i ++ taggersL outer is

end

/-- The conditions of the product and of all groups around are met. -/
def active (pe : Bool) (ch : List GData) : Bool := pe && ch.all (·.cond)

/-- All groups of a product and its modules. -/
def Product.places {P : Type} (p : Product P) : List Place :=
  placesL [] p.items ++ p.modules.flatMap (placesL [])

/-- All file taggers of a product and its modules. -/
def Product.taggers {P : Type} (p : Product P) : List (List GData × TaggerItem) :=
  taggersL [] p.items ++ p.modules.flatMap (taggersL [])

/-- The active groups that have files. -/
def Product.fileGroups {P : Type} (p : Product P) : List Place :=
  p.places.filter fun c => active p.enabled c.path && c.d.filter.isEmpty

/-- The active groups that have a `fileTagsFilter`. -/
def Product.filterGroups {P : Type} (p : Product P) : List Place :=
  p.places.filter fun c => active p.enabled c.path && !c.d.filter.isEmpty

/-- The active file taggers, including those of the project. -/
def Product.allTaggers {P : Type} (p : Product P) : List Tagger :=
  ((p.taggers.filter fun x => active p.enabled x.1 && x.2.cond).map
    fun x => ⟨x.2.patterns, x.2.tags, x.2.priority⟩) ++ p.projectTaggers

/-- The prefix that counts is that of the innermost group that sets one. -/
def prefixOf (c : Place) : String := (c.path.reverse.findSome? (·.pre)).getD ""

/-- The files of a group: absolute path and whether it comes from a wildcard. -/
def filesOf {P : Type} (e : Env P) (c : Place) : List (String × Bool) :=
  (if c.d.files.all (fun f => !e.isPattern f) then []
    else (e.expand c.d.dir (prefixOf c) (c.d.files.filter e.isPattern).reverse c.d.excludes).map
      fun f => (e.resolve c.d.dir f, true)) ++
  (c.d.files.filter (fun f => !e.isPattern f)).map
    fun f => (e.resolve c.d.dir (prefixOf c ++ f), false)

/-- The group's tags replace those of the groups around it. -/
def Replaces (d : GData) : Prop := d.overrideTags = true ∧ d.tagsSet = true

/-- A tag the group itself gives to its files. -/
def OwnTag (d : GData) (t : String) : Prop :=
  t ∈ d.tags ∨ (Replaces d ∧ d.tags = [] ∧ t = "unknown-file-tag")

/-- A tag that the files of a group have because of the group or of a group around it: no group
in between replaces it. -/
def HasTag (c : Place) (t : String) : Prop :=
  ∃ outer g inner, c.path = outer ++ g :: inner ∧ OwnTag g t ∧ ∀ h ∈ inner, ¬ Replaces h

/-- A tagger that is responsible for a file name. -/
def Covers {P : Type} (e : Env P) (u : Tagger) (name : String) : Prop :=
  ∃ q ∈ u.patterns, e.matches_ q name = true

/-- A tag that the taggers of the highest priority give to a file name. -/
def TaggerTag {P : Type} (e : Env P) (ts : List Tagger) (name t : String) : Prop :=
  ∃ u ∈ ts, Covers e u name ∧ t ∈ u.tags ∧ ∀ v ∈ ts, Covers e v name → v.priority ≤ u.priority

/-- A tag of a file before the groups with filters are looked at: from its groups, or by file
taggers if its group does not exclude them, or "unknown" if there is no other tag. -/
def FileTag {P : Type} (e : Env P) (ts : List Tagger) (c : Place) (path t : String) : Prop :=
  HasTag c t ∨
  ((c.d.overrideTags = false ∨ ¬ ∃ u, HasTag c u) ∧
    (TaggerTag e ts (e.fileName path) t ∨
      ((¬ ∃ u, HasTag c u) ∧ (¬ ∃ u, TaggerTag e ts (e.fileName path) u) ∧
        t = "unknown-file-tag")))

/-- The `i`-th group with a filter applies: its filter has a tag of the file, or one that an
earlier such group added. -/
inductive Applies (own : String → Prop) (fs : List GData) : Nat → Prop where
  | own {i d t} : fs[i]? = some d → t ∈ d.filter → own t → Applies own fs i
  | added {i j d d' t} : fs[i]? = some d → t ∈ d.filter → j < i → Applies own fs j →
      fs[j]? = some d' → t ∈ d'.tags → Applies own fs i

/-- A tag after the groups with filters have been looked at. -/
def Filtered (own : String → Prop) (fs : List GData) (t : String) : Prop :=
  own t ∨ ∃ i d, Applies own fs i ∧ fs[i]? = some d ∧ t ∈ d.tags

/-- The module properties of the files of a group: those of the product, changed by what the groups
around and the group itself set, the outermost first. -/
def propsOf {P : Type} [DecidableEq P] (e : Env P) (p : P) (ch : List GData) : P :=
  ch.foldl (fun p d => if e.sets d.id = true ∧ e.eval d.id false p ≠ e.empty
    then e.eval d.id false p else p) p

/-- The module properties after some of the groups with a filter, those in `sel`, have been
applied in their order. -/
def selected {P : Type} (e : Env P) (sel : Nat → Bool) : Nat → List GData → P → P
  | _, [], p => p
  | i, d :: ds, p => selected e sel (i + 1) ds (if sel i then e.eval d.id true p else p)

/-- What is expected of `std::sort` here. -/
def SortOk {P : Type} (e : Env P) : Prop :=
  ∀ ts, (e.sort ts).Perm ts ∧ (e.sort ts).Pairwise (fun a b => b.priority ≤ a.priority)

end Verif.Tags
