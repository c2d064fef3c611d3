import Verif.Anew.Props
/-!
# C56, C57: concrete cases, and changes that are missed
-/
namespace Verif.Anew

def tag (s : String) : Str := s.toList

def compile : Rule := ⟨[tag "obj"], [tag "cpp"], tag "compile", none, [(tag "a.o", 1)], 0⟩

def link : Rule := ⟨[tag "application"], [tag "obj"], tag "link", none, [(tag "app", 1)], 0⟩

def lib : Product where
  name := 1
  enabled := true
  tags := 1
  install := 0
  groups := [⟨[tag "obj"], 1⟩, ⟨[tag "application"], 2⟩]
  moduleProps := 7
  scanners := [1, 2]
  rules := [compile, link]
  deps := []
  files := [⟨tag "b.cpp", 1⟩, ⟨tag "a.cpp", 2⟩]
  taggers := []
  data := some [compile, link, compile]

def app : Product := { lib with name := 2, deps := [(1, false)] }

def tool : Product := { lib with name := 3, deps := [] }

def off : Product := { lib with name := 4, enabled := false, deps := [], data := none }

def old : List Product := [tool, app, lib, off]

/-- As it is after resolving again: without build data. -/
def fresh (p : Product) : Product := { p with data := none }

theorem old_restored : Restored old where
  names := by decide
  closed := by decide
  acyclic := ⟨id, by decide⟩
  data := by decide
  ruleRefs := by decide

theorem old_distinct : Distinct old where
  rules := by decide +kernel
  scanners := by decide
  deps := by decide

/-- The library has one more source file: it is set up anew, and so is the application that depends on it. The tool
    keeps its build data, though its rules and files are in another order now. -/
def new1 : List Product :=
  [fresh { lib with files := ⟨tag "c.cpp", 1⟩ :: lib.files }, fresh app,
   fresh { tool with rules := [link, compile], files := tool.files.reverse, scanners := [2, 1] }, fresh off]

example : trackAll old new1 [] = ⟨[(3, some [compile, link, compile])], [1, 2], [], [1, 2]⟩ := by decide +kernel

example : (3, some [compile, link, compile]) ∈ (trackAll old new1 []).kept :=
  (C56_kept old_restored old_distinct (by decide) (by decide) 3 _).2
    ⟨fresh { tool with rules := [link, compile], files := tool.files.reverse, scanners := [2, 1] }, by simp [new1], rfl,
      rfl, tool, by simp [old], rfl, rfl, rfl, by
      intro h
      have := (C56_rescued (known := []) old_restored old_distinct (new := new1) (by decide) (by decide)
        (p := tool) (q := fresh { tool with rules := [link, compile], files := tool.files.reverse, scanners := [2, 1] })
        (by simp [old]) (by simp [new1]) rfl).2 h
      revert this
      decide +kernel⟩

example : 2 ∈ (trackAll old new1 []).setUp :=
  (C56_set_up old_restored old_distinct (by decide) (by decide) 2).2
    ⟨fresh app, by simp [new1], rfl, rfl, fun _ _ _ _ =>
      ⟨1, .dep (p := app) (d := (1, false)) (by simp [old]) (by simp [app]) (.self 1),
        .inr ⟨lib, by simp [old], fresh { lib with files := ⟨tag "c.cpp", 1⟩ :: lib.files }, by simp [new1], rfl, rfl,
          fun h => absurd h.files.length_eq (by decide)⟩⟩⟩

/-- A product is gone, another is enabled, a third is new. -/
def new2 : List Product := [fresh lib, fresh app, fresh { off with enabled := true }, fresh { lib with name := 9 }]

example : trackAll old new2 [] = ⟨[(1, lib.data), (2, lib.data)], [4, 9], [3], [4]⟩ := by decide +kernel

example : 3 ∈ (trackAll old new2 []).removed :=
  (C56_removed old new2 [] 3).2 ⟨⟨tool, by simp [old], rfl⟩, by decide⟩

/-- **C56 finding.** Two rules of a product differ only in something that is not part of the key, for example in
    whether they are multiplex. When just the second is changed to be like the first, or the first is changed in a way
    that is not part of the key, the change is not seen. The build data is kept, and then an assertion fails as there is
    no rule any more like the one that a node refers to. -/
theorem C56_similar_rule_missed : ∃ (p q : Product), p.rules.length = 2 ∧ ¬ p.rules.Perm q.rules ∧ Restored [p] ∧
    (trackAll [p] [q] []).kept = [(p.name, none)] := by
  refine ⟨{ lib with rules := [{ compile with other := 1 }, compile], data := some [{ compile with other := 1 }] },
    fresh { lib with rules := [{ compile with other := 2 }, compile] }, rfl, ?_, ?_, by decide +kernel⟩
  · intro h
    have := h.mem_iff (a := { compile with other := 1 })
    revert this
    decide
  · exact ⟨by decide, by decide, ⟨id, by decide⟩, by decide, by decide⟩

/-! ## Artifacts -/

/-- Module properties and the tags of a source file have changed: the product is kept and both are updated. -/
def lib' : Product := fresh { lib with moduleProps := 8, files := [⟨tag "a.cpp", 2⟩, ⟨tag "b.cpp", 5⟩] }

example : changed lib lib' = false ∧ needsUpdate lib lib' = true ∧ changedSources lib lib' = [⟨tag "b.cpp", 5⟩] := by
  decide +kernel

example : ¬ (lib.groups.Perm lib'.groups ∧ lib.moduleProps = lib'.moduleProps) := by
  rw [← C57_update (by decide) (by decide) (by decide +kernel)]
  decide +kernel

example : (⟨tag "b.cpp", 5⟩ : Source) ∈ changedSources lib lib' :=
  (C57_sources (by decide) (by decide +kernel) _).2 ⟨by simp [lib', fresh], by decide⟩

example : provide lib (tag "a.o") [tag "obj"] = provide (fresh { lib with groups := lib.groups.reverse }) (tag "a.o")
    [tag "obj"] :=
  C57_artifacts_current_partial (by decide) (by decide) (by decide +kernel) (by decide +kernel) rfl _ _ (by decide)

/-- **C57 finding.** Two groups for artifacts change places. An artifact that both match gets its properties from the
    first, so it should get others now. The groups count as equal, as their order is not compared, and the artifact keeps
    the properties it had. -/
theorem C57_group_order_missed : ∃ (p q : Product) (file : Str) (pure : List Str), changed p q = false ∧
    needsUpdate p q = false ∧ (p.groups.map Group.key).Nodup ∧ p.taggers = q.taggers ∧
    provide p file pure ≠ provide q file pure :=
  ⟨lib, fresh { lib with groups := lib.groups.reverse }, tag "x", [tag "obj", tag "application"], by decide +kernel,
    by decide +kernel, by decide, rfl, by decide +kernel⟩

/-- **C57 finding.** A file tagger is added. A generated file whose rule gives it no tags should have the tag now. File
    taggers are not compared, and the artifact stays without. -/
theorem C57_tagger_missed : ∃ (p q : Product) (file : Str), changed p q = false ∧ needsUpdate p q = false ∧
    p.groups = q.groups ∧ (provide p file []).1 = [] ∧ (provide q file []).1 = [tag "moc"] :=
  ⟨lib, fresh { lib with taggers := [(tag "m.h", tag "moc")] }, tag "m.h", by decide +kernel, by decide +kernel, rfl,
    by decide +kernel, by decide +kernel⟩

/-- **C57 finding.** One group is for the tags "a" and "b", another for a tag with a comma, "a,b". Only the last one
    with this key is compared, and a change of the other is not seen. -/
theorem C57_comma_missed : ∃ (p q : Product) (file : Str) (pure : List Str), changed p q = false ∧
    needsUpdate p q = false ∧ p.taggers = q.taggers ∧ ¬ p.groups.Perm q.groups ∧
    provide p file pure ≠ provide q file pure := by
  refine ⟨{ lib with groups := [⟨[tag "a", tag "b"], 1⟩, ⟨[tag "a,b"], 2⟩] },
    fresh { lib with groups := [⟨[tag "a", tag "b"], 3⟩, ⟨[tag "a,b"], 2⟩] }, tag "x", [tag "a"], by decide +kernel,
    by decide +kernel, rfl, ?_, by decide +kernel⟩
  intro h
  have := h.mem_iff (a := ⟨[tag "a", tag "b"], 1⟩)
  revert this
  decide

end Verif.Anew
