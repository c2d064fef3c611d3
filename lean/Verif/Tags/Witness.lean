import Verif.Tags.Props
import Verif.Common.Sort
/-! # Examples and findings: C95, C96, C97 -/
namespace Verif.Tags

/-- A world in which a property map is the list of the groups that changed it, groups with numbers
from 10 set module properties, and group 99 sets that its files are installed. -/
def e0 (strict : Bool) : Env (List Nat) where
  strict := strict
  isFile f := f != "/s/gone"
  resolve d f := d ++ "/" ++ f
  fileName f := f
  isPattern f := f == "*"
  expand _ pre _ ex := [pre ++ "w1", pre ++ "w2"].filter (fun f => !ex.contains f)
  matches_ p n := p == "*" || p == n
  sort := Common.isort (fun a b => decide (b.priority ≤ a.priority))
  empty := []
  sets i := decide (10 ≤ i)
  eval i _ p := p ++ [i]
  install p := p.contains 99

theorem e0_sort (b : Bool) : SortOk (e0 b) := by
  intro ts
  refine ⟨Common.isort_perm _ _, ?_⟩
  show (Common.isort _ ts).Pairwise _
  induction ts with
  | nil => exact List.Pairwise.nil
  | cons a ts ih =>
    have := Common.insertS_sorted (fun a b : Tagger => decide (b.priority ≤ a.priority))
      (by intro a b; simp only [decide_eq_true_eq]; omega)
      (by intro a b c; simp only [decide_eq_true_eq]; omega) a
      (Common.isort (fun a b : Tagger => decide (b.priority ≤ a.priority)) ts)
      (ih.imp (by intro x y h; simpa using h))
    exact this.imp (by intro x y h; simpa using h)

/-- A group with files. -/
def g0 (id : Nat) (files : List String) : GData where
  id := id
  file := "p.qbs"
  dir := "/s"
  cond := true
  files := files
  filesLine := true
  filesLoc := true
  atProduct := false
  excludes := []
  tags := []
  tagsSet := false
  filter := []
  pre := none
  overrideTags := true
  target := ""

/-- A group with a filter. -/
def f0 (id : Nat) (filter tags : List String) : GData :=
  { g0 id [] with filter := filter, tags := tags, tagsSet := true, filesLine := false }

def prod (own : List String) (cs : List GItem) : Product (List Nat) where
  enabled := true
  props := [1]
  own := some { g0 0 own with atProduct := true, overrideTags := false }
  children := cs
  modules := []
  projectTaggers := [⟨["/s/a"], ["cpp"], 0⟩, ⟨["*"], ["any"], -1⟩]

/-- A product with a nested group with wildcards, a disabled group, a file tagger, a group with a
filter, and a module with a group. -/
def big : Product (List Nat) :=
  { prod ["a", "b"] [
      .group { g0 10 ["*", "c"] with pre := some "x", tags := ["t1"], tagsSet := true,
                                     excludes := ["xw1"] }
        [.group { g0 11 ["d"] with tags := ["t2"], tagsSet := true, overrideTags := false } [],
         .tagger ⟨true, ["/s/b"], ["hpp", "any"], 5⟩],
      .group { g0 12 ["gone"] with cond := false } [],
      .group (f0 99 ["t2", "hpp"] ["flt"]) [],
      .group (f0 13 ["flt"] ["last"]) []] with
    modules := [[.group { g0 14 ["a"] with target := "m" } []]] }

def bigR (b : Bool) : Option (List (String × List String × List Nat)) :=
  match resolveProduct (e0 b) big with
  | .ok (st, srcs) => if st.printed = [] then some (srcs.map fun s => (s.path, s.tags, s.props)) else none
  | .error _ => none

theorem bigR_eq : bigR true = some [
    ("/s/a", ["cpp"], [1]),
    ("/s/b", ["hpp", "any", "flt", "last", "installable"], [1, 99, 13]),
    ("/s/xw2", ["t1"], [1, 10]),
    ("/s/xc", ["t1"], [1, 10]),
    ("/s/xd", ["t2", "t1", "any", "flt", "last", "installable"], [1, 10, 11, 99, 13]),
    ("/s/a", ["cpp"], [1, 14])] := by decide +kernel

theorem big_ok : ∃ st srcs, resolveProduct (e0 true) big = .ok (st, srcs) ∧ st.printed = [] ∧
    srcs.length = 6 := by
  have h := bigR_eq
  unfold bigR at h
  split at h
  · rename_i st srcs hr
    split at h
    · rename_i hp
      refine ⟨st, srcs, hr, hp, ?_⟩
      have := congrArg List.length (Option.some.inj h)
      rw [List.length_map] at this
      exact this
    · cases h
  · cases h

/-- The hypotheses of `C95_tags`, `C95_some_tag`, `C96_sources` and `C96_exists` are met. -/
example : SortOk (e0 true) ∧ ∃ st srcs, resolveProduct (e0 true) big = .ok (st, srcs) ∧
    st.printed = [] ∧ srcs.length = 6 := ⟨e0_sort true, big_ok⟩

/-- The files of the groups of the example. -/
example : (big.fileGroups.flatMap (filesOf (e0 true))) =
    [("/s/a", false), ("/s/b", false), ("/s/xw2", true), ("/s/xc", false), ("/s/xd", false),
     ("/s/a", false)] := by decide +kernel

/-- `C95_taggers`: two taggers with the highest priority and one with a lower one. -/
example : TaggerTag (e0 true) [⟨["*"], ["low"], 0⟩, ⟨["f"], ["x"], 3⟩, ⟨["*"], ["y"], 3⟩] "f" "y" ∧
    tagsForFileName (e0 true) ((e0 true).sort
      [⟨["*"], ["low"], 0⟩, ⟨["f"], ["x"], 3⟩, ⟨["*"], ["y"], 3⟩]) "f" = ["x", "y"] := by
  refine ⟨⟨⟨["*"], ["y"], 3⟩, by simp, ⟨"*", by simp, rfl⟩, by simp, ?_⟩, by decide +kernel⟩
  intro v hv _
  simp only [List.mem_cons, List.not_mem_nil, or_false] at hv
  rcases hv with rfl | rfl | rfl <;> decide

/-- The hypotheses of `C96_missing` are met. -/
example : ∃ c ∈ (prod ["a", "gone"] []).fileGroups,
    ("/s/gone", false) ∈ filesOf (e0 true) c ∧ (e0 true).isFile "/s/gone" = false :=
  ⟨⟨[], { g0 0 ["a", "gone"] with atProduct := true, overrideTags := false }⟩, by decide +kernel,
    by decide +kernel, by decide +kernel⟩

/-- The hypotheses of `C96_once_partial` are met. -/
example : ∀ c ∈ big.fileGroups, c.d.filesLoc = true := by decide +kernel

/-- The hypotheses of `C97_props_partial` and `C97_generated_partial` are met. -/
example : (big.filterGroups.map (·.d.filter)).Nodup ∧
    (∀ c ∈ big.filterGroups, (e0 true).sets c.d.id = true) ∧ big.filterGroups.length = 2 ∧
    big.enabled = true := by decide +kernel

/-- A generated file with the tag "flt" in the example. -/
example : (match resolveProduct (e0 true) big with
    | .ok (st, _) => some (generated (e0 true) st ["flt"] "x", generated (e0 true) st ["o"] "x")
    | .error _ => none) = some (([1, 13], ["flt", "last"]), ([1], ["o"])) := by decide +kernel

/-! ## Findings -/

/-- **C96 finding.** Everything inside a group with `fileTagsFilter` is ignored without a word:
files, file taggers and properties (productresolver.cpp 774-804, the return before the children are
looked at). -/
theorem C96_filter_children {P : Type} [DecidableEq P] (e : Env P) (pe : Bool) (cur : Option Group)
    (runT : Bool) (d : GData) (cs : List GItem) (h : d.filter ≠ []) (st : State P) :
    resolveItem e pe cur runT (.group d cs) st = resolveItem e pe cur runT (.group d []) st := by
  rw [resolveItem_group, resolveItem_group]
  unfold body
  rw [if_pos h, if_pos h]

/-- The sources of a product, as far as needed for the findings. -/
def outcome (b : Bool) (p : Product (List Nat)) :
    Option (List (String × List String × List Nat)) × Option Err :=
  match resolveProduct (e0 b) p with
  | .ok (_, srcs) => (some (srcs.map fun s => (s.path, s.tags, s.props)), none)
  | .error x => (none, some x)

/-- **C96 finding.** The file of a group inside a group with `fileTagsFilter` is no source file of
the product, and there is no error. -/
theorem C96_filter_children_lost :
    outcome true (prod ["a"] [.group (f0 10 ["cpp"] ["x"]) [.group (g0 11 ["b"]) []]]) =
      (some [("/s/a", ["cpp", "x"], [1, 10])], none) := by decide +kernel

/-- **C96 finding.** A group whose `files` are set only in a `Properties` item ends in an internal
error: whether the list of files is created depends on the line number of the value of `files`,
which then is that of the default value (productresolver.cpp 826-829 and 923; values from
`Properties` items are alternatives of it, astpropertiesitemhandler.cpp 219-232). -/
theorem C96_properties_internal :
    outcome true (prod ["a"] [.group { g0 10 ["b"] with filesLine := false } []]) =
      (none, some .internal) := by decide +kernel

/-- **C96 finding.** A file is listed twice and no error is reported, if the value of `files` comes
from the command line: it has no location, and an invalid location counts as "not there yet"
(productresolver.cpp 911-922). -/
theorem C96_override_twice :
    outcome true (prod [] [.group { g0 10 ["a", "a"] with filesLoc := false } []]) =
      (some [("/s/a", ["cpp"], [1, 10]), ("/s/a", ["cpp"], [1, 10])], none) ∧
    outcome true (prod [] [.group (g0 10 ["a", "a"]) []]) =
      (none, some (.files [.duplicate "/s/a"])) :=
  ⟨by decide +kernel, by decide +kernel⟩

/-- **C96 finding.** `excludeFiles` has no effect on files that are listed by name, only on those
from wildcards; the documentation says that the files are subtracted from `files`
(productresolver.cpp 832-848). -/
theorem C96_exclude_listed :
    outcome true (prod [] [.group { g0 10 ["a", "*"] with excludes := ["a", "w1"] } []]) =
      (some [("/s/w2", ["any"], [1, 10]), ("/s/a", ["cpp"], [1, 10])], none) := by decide +kernel

/-- **C95 finding.** File taggers are applied to files with explicit `fileTags` if `overrideTags`
is false; the documentation of `Group.fileTags` says that this never happens
(productresolver.cpp 1293-1297). -/
theorem C95_tagger_on_tagged :
    outcome true (prod [] [.group { g0 10 ["a"] with tags := ["mine"], tagsSet := true,
                                                     overrideTags := false } []]) =
      (some [("/s/a", ["mine", "cpp"], [1, 10])], none) := by decide +kernel

/-- **C95 finding.** A file tagger inside a group is not restricted to the files of this group. -/
theorem C95_tagger_in_group :
    outcome true (prod ["a"] [.group (g0 10 ["b"]) [.tagger ⟨true, ["/s/a"], ["g"], 1⟩]]) =
      (some [("/s/a", ["g"], [1]), ("/s/b", ["any"], [1, 10])], none) := by decide +kernel

/-- **C97 finding.** A group with `fileTagsFilter` that only adds file tags takes all module
properties away from the source files it matches: the result of the evaluation is empty if the group
sets none, and it is used in any case (productresolver.cpp 952-953, 1308-1317). -/
theorem C97_wiped :
    outcome true (prod ["a", "b"] [.group (f0 5 ["cpp"] ["x"]) []]) =
      (some [("/s/a", ["cpp", "x"], []), ("/s/b", ["any"], [1])], none) := by decide +kernel

/-- **C97 finding.** A group with a filter that sets no module property shares the map of the
product, and a second one with the same filter, in another file, then changes this map: the
properties of the second group apply to files that have none of the tags (productresolver.cpp
742-760, 788-795). -/
theorem C97_product_changed :
    outcome true (prod ["b"] [.group (f0 5 ["cpp"] []) [],
      .group { f0 10 ["cpp"] [] with file := "m.qbs" } []]) =
      (some [("/s/b", ["any"], [1, 10])], none) := by decide +kernel

/-- **C97 finding.** Only the first group with a matching filter counts for a generated file, while
all count for source files (buildgraph.cpp 731-737, the `break`). -/
theorem C97_generated_first :
    (match resolveProduct (e0 true) (prod ["a"] [.group (f0 10 ["cpp"] []) [],
        .group (f0 11 ["cpp", "obj"] ["z"]) []]) with
      | .ok (st, srcs) => some (srcs.map (·.props), generated (e0 true) st ["cpp"] "x")
      | .error _ => none) = some ([[1, 10, 11]], ([1, 10], ["cpp"])) := by decide +kernel

/-- **C97 finding.** Two groups with the same filter in one file are an error, but not if the tags
are in a different order (productresolver.cpp 785-794: the key is the list as written). -/
theorem C97_order_of_filter :
    (outcome true (prod ["a"] [.group (f0 10 ["cpp", "x"] []) [],
      .group (f0 11 ["cpp", "x"] []) []])).2 = some .conflict ∧
    outcome true (prod ["a"] [.group (f0 10 ["cpp", "x"] []) [],
      .group (f0 11 ["x", "cpp"] []) []]) = (some [("/s/a", ["cpp"], [1, 10, 11])], none) :=
  ⟨by decide +kernel, by decide +kernel⟩

end Verif.Tags
