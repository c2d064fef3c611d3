import Verif.Moc.Props

/-! Cases that meet the hypotheses, and the findings. -/
namespace Verif.Moc

def plainB (f : File) : Bool :=
  f.tags.all (fun t => !(t.contains ',')
    && (t == sCppCombine || t == sObjcppCombine || !(has sCppCombine t))
    && (t == sMocable || t == sUnmocable || !(has sMocable t))
    && (t == sHpp || !(has sHpp t)))

theorem plain_of {f : File} (h : plainB f = true) : PlainTags f := by
  intro t ht
  have := List.all_eq_true.mp h t ht
  simp only [Bool.and_eq_true, Bool.or_eq_true, Bool.not_eq_true', beq_iff_eq] at this
  obtain ⟨⟨⟨h1, h2⟩, h3⟩, h4⟩ := this
  have no : ∀ {p s : Str}, has p s = false → ¬ p <:+: s := by
    intro p s h h'; rw [(has_iff p s).mpr h'] at h; cases h
  refine ⟨by simpa using h1, ?_, ?_, ?_⟩
  · rcases h2 with (h | h) | h
    · exact .inl h
    · exact .inr (.inl h)
    · exact .inr (.inr (no h))
  · rcases h3 with (h | h) | h
    · exact .inl h
    · exact .inr (.inl h)
    · exact .inr (.inr (no h))
  · rcases h4 with h | h
    · exact .inl h
    · exact .inr (no h)

/-- A decidable form of the specification, for the concrete cases. -/
def includesB (f : File) (b : Str) : Bool := (f.content.includes.filterMap mocName).contains b

theorem includesB_iff (f : File) (b : Str) : includesB f b = true ↔ IncludesMoc f b := by
  rw [includesB, List.contains_iff_mem, included_iff]

def cfg0 : Cfg := ⟨false, false, false, false, false⟩
def baseA : Str := ['a']
def incA : Str := ['g','e','n','/','m','o','c','_','a','.','c','p','p']

/-- A header with `Q_OBJECT`. -/
def headerA : File := ⟨[sHpp], baseA, ⟨true, false, []⟩⟩
/-- A source file that includes the code generated for it. -/
def sourceA : File := ⟨[sCpp], baseA, ⟨false, false, [incA]⟩⟩
/-- The same file without the include directive. -/
def sourceA' : File := ⟨[sCpp], baseA, ⟨false, false, []⟩⟩
/-- A source file with `Q_OBJECT`. -/
def sourceB : File := ⟨[sCpp], ['b'], ⟨true, false, []⟩⟩

def setupA : List Event := [.add headerA, .add sourceA, .add sourceB]
/-- Build, touch the header, build again, add a file. -/
def laterA : List Event :=
  [.apply .cpp, .apply .hpp, .edit 0 ⟨true, true, []⟩, .apply .hpp, .add ⟨[sHpp], ['c'], ⟨true, false, []⟩⟩]

theorem filesA : files (steps cfg0 [] setupA) = [headerA, sourceA, sourceB] := by decide

theorem coveredA : ∀ f ∈ [headerA, sourceA, sourceB], Covered f := by
  intro f hf hs hb
  simp only [List.mem_cons, List.not_mem_nil, or_false] at hf
  rcases hf with rfl | rfl | rfl
  · exact absurd ((isSource_iff _).mpr hs) (by decide)
  · decide
  · decide

theorem plainA : ∀ f ∈ [headerA, sourceA, sourceB], PlainTags f := by
  intro f hf
  apply plain_of
  revert f
  decide

theorem harmlessA : Harmless cfg0 (steps cfg0 [] setupA) laterA := by
  refine ⟨trivial, trivial, ?_, trivial, ⟨plain_of (by decide), ?_⟩, trivial⟩
  · intro e he hs
    have : e.file = headerA := by
      have h0 : (files (step cfg0 (step cfg0 (steps cfg0 [] setupA) (.apply .cpp)) (.apply .hpp)))[0]?
          = some headerA := by
        simp only [step, apply_files, filesA]; rfl
      rw [files, List.getElem?_map, he] at h0
      exact Option.some.inj h0
    rw [this] at hs
    exact absurd ((isSource_iff _).mpr hs) (by decide)
  · intro hs
    exact absurd ((isSource_iff _).mpr hs) (by decide)

/-- The hypotheses of `C120_headers_partial` and `C120_sources_partial` are met, and there are a
header whose code is included, one whose code is compiled, and a source file with its own file. -/
example :
    (∀ ev ∈ setupA, ev.Setup) ∧
    (∀ f ∈ files (steps cfg0 [] setupA), PlainTags f) ∧
    (∀ f ∈ files (steps cfg0 [] setupA), Covered f) ∧
    Harmless cfg0 (steps cfg0 [] setupA) laterA ∧
    ((steps cfg0 (steps cfg0 [] setupA) (laterA ++ [.apply .hpp])).map (fun e => e.out .hpp)) =
      [[⟨sMocPrefix ++ baseA ++ sCppSuffix, [sUnmocable, sHpp]⟩], [], [],
       [⟨sMocPrefix ++ ['c'] ++ sCppSuffix, [sUnmocable, sCpp]⟩]] ∧
    ((steps cfg0 (steps cfg0 [] setupA) (laterA ++ [.apply .cpp])).map (fun e => e.out .cpp)) =
      [[], [], [⟨['b'] ++ sMocSuffix, [sUnmocable, sHpp]⟩], []] := by
  refine ⟨?_, ?_, ?_, harmlessA, by decide +kernel, by decide +kernel⟩
  · intro ev hev
    simp only [setupA, List.mem_cons, List.not_mem_nil, or_false] at hev
    rcases hev with rfl | rfl | rfl <;> trivial
  · rw [filesA]; exact plainA
  · rw [filesA]; exact coveredA

/-- With all options: generated code is compiled together, with more files beside it. -/
example :
    ((steps ⟨false, false, true, true, true⟩ [] [.add headerA, .add sourceB, .apply .hpp, .apply .cpp]).map
      (fun e => (e.out .hpp ++ e.out .cpp).map (·.name.length))) = [[9, 14], [5, 7, 10, 10]] ∧
    ((steps ⟨false, false, true, true, true⟩ [] [.add headerA, .apply .hpp]).map
      (fun e => (e.out .hpp).map (·.tags))) = [[[sUnmocable, sMocCpp], [sMetatypes]]] := by
  constructor <;> decide +kernel

/-- The documented tag is enough, without any macro. -/
example : ((steps cfg0 [] [.add ⟨[sHpp, sMocable], baseA, ⟨false, false, []⟩⟩, .apply .hpp]).map
    (fun e => e.out .hpp)) = [[⟨sMocPrefix ++ baseA ++ sCppSuffix, [sUnmocable, sCpp]⟩]] := by
  decide +kernel

/-- **C120 finding.** When the include directive for generated code is removed from a source file, the
code is neither included nor compiled afterwards: the rule for headers does not run.  (The test for
this in tests/auto/blackbox/tst_blackboxqt.cpp 207-236 is marked as an expected failure.)  Touching
the header helps, as `C120_touched_partial` says. -/
theorem C120_finding_include_removed :
    let es := steps cfg0 [] [.add headerA, .add sourceA, .apply .cpp, .apply .hpp,
      .edit 1 sourceA'.content, .apply .cpp, .apply .hpp]
    es.map (fun e => e.out .hpp) = [[⟨sMocPrefix ++ baseA ++ sCppSuffix, [sUnmocable, sHpp]⟩], []] ∧
    (∀ f ∈ files es, ¬ IncludesMoc f baseA) ∧
    (step cfg0 (step cfg0 es (.edit 0 headerA.content)) (.apply .hpp)).map (fun e => e.out .hpp) =
      [[⟨sMocPrefix ++ baseA ++ sCppSuffix, [sUnmocable, sCpp]⟩], []] := by
  refine ⟨by decide +kernel, ?_, by decide +kernel⟩
  intro f hf
  rw [← includesB_iff]
  revert f
  decide +kernel

/-- **C120 finding.** And when such a directive is added, the code is included and also compiled on
its own. -/
theorem C120_finding_include_added :
    let es := steps cfg0 [] [.add headerA, .add sourceA', .apply .cpp, .apply .hpp,
      .edit 1 sourceA.content, .apply .cpp, .apply .hpp]
    es.map (fun e => e.out .hpp) = [[⟨sMocPrefix ++ baseA ++ sCppSuffix, [sUnmocable, sCpp]⟩], []] ∧
    (∃ f ∈ files es, IncludesMoc f baseA) := by
  refine ⟨by decide +kernel, sourceA, by decide +kernel, ?_⟩
  rw [← includesB_iff]
  decide +kernel

/-- **C120 finding.** If the product combines its C++ sources, the result depends on which of the two
rules is applied first: the rule for headers does not ask for the results of scanning combined
sources (core.qbs 380).  If it comes first, the generated code is included and also compiled. -/
theorem C120_finding_combined :
    let cfg : Cfg := ⟨true, false, true, false, false⟩
    let src : File := ⟨[sCppCombine], baseA, ⟨false, false, [incA]⟩⟩
    IncludesMoc src baseA ∧
    (steps cfg [] [.add headerA, .add src, .apply .hpp, .apply .cpp]).map (fun e => e.out .hpp) =
      [[⟨sMocPrefix ++ baseA ++ sCppSuffix, [sUnmocable, sMocCpp]⟩], []] ∧
    (steps cfg [] [.add headerA, .add src, .apply .cpp, .apply .hpp]).map (fun e => e.out .hpp) =
      [[⟨sMocPrefix ++ baseA ++ sCppSuffix, [sUnmocable, sHpp]⟩], []] := by
  refine ⟨?_, by decide +kernel, by decide +kernel⟩
  rw [← includesB_iff]
  decide +kernel

/-- **C120 finding.** The same for a source file that is itself kept away from `moc`: it is not
scanned for the rule, so the code that it includes is also compiled. -/
theorem C120_finding_unmocable_source :
    let src : File := ⟨[sCpp, sUnmocable], baseA, ⟨true, false, [incA]⟩⟩
    IncludesMoc src baseA ∧
    (steps cfg0 [] [.add headerA, .add src, .apply .cpp, .apply .hpp]).map (fun e => e.out .hpp) =
      [[⟨sMocPrefix ++ baseA ++ sCppSuffix, [sUnmocable, sCpp]⟩], []] := by
  refine ⟨?_, by decide +kernel⟩
  rw [← includesB_iff]
  decide +kernel

/-- **C120 finding.** Giving the tag "mocable" to a file that was scanned before has no effect, and
neither has taking it away: the results of the scanner are kept for the path. -/
theorem C120_finding_retag :
    let f : File := ⟨[sHpp], baseA, ⟨false, false, []⟩⟩
    let g : File := ⟨[sHpp, sMocable], baseA, ⟨false, false, []⟩⟩
    (steps cfg0 [] [.add f, .apply .hpp, .retag 0 g.tags, .apply .hpp]).map (fun e => e.out .hpp) = [[]] ∧
    (steps cfg0 [] [.add g, .apply .hpp, .retag 0 f.tags, .apply .hpp]).map (fun e => e.out .hpp) =
      [[⟨sMocPrefix ++ baseA ++ sCppSuffix, [sUnmocable, sCpp]⟩]] := by
  constructor <;> decide +kernel

/-- **C120 finding.** A source file with `Q_OBJECT` gets nothing if some other tag of it merely
contains the letters "hpp": the scanner searches in the joined tags. -/
theorem C120_finding_substring :
    let f : File := ⟨[sCpp, ['h','p','p','g','e','n']], baseA, ⟨true, false, []⟩⟩
    WantsMoc f ∧
    (steps cfg0 [] [.add f, .apply .cpp]).map (fun e => e.out .cpp) = [[]] := by
  exact ⟨.inl rfl, by decide +kernel⟩

/-- **C120 finding.** If the product combines its C++ sources, a file that is excluded from this by
the tag "cpp" gets nothing from `moc`, though it contains `Q_OBJECT` (core.qbs 367-369). -/
theorem C120_finding_not_combined :
    WantsMoc sourceB ∧
    (steps ⟨true, false, true, false, false⟩ [] [.add sourceB, .apply .cpp, .apply .hpp]).map
      (fun e => e.out .cpp ++ e.out .hpp) = [[]] := by
  exact ⟨.inl rfl, by decide +kernel⟩

/-- The hypotheses of `C120_touched_partial` are met after an include directive was removed. -/
example :
    let evs : List Event := [.add headerA, .add sourceA, .apply .cpp, .apply .hpp,
      .edit 1 sourceA'.content, .apply .hpp, .edit 0 headerA.content]
    (∀ i tags, Event.retag i tags ∉ evs) ∧
    (∀ f ∈ files (steps cfg0 [] evs), PlainTags f) ∧
    (∀ f ∈ files (steps cfg0 [] evs),
      SourceFile f → (sCpp ∈ f.tags ∨ sObjcpp ∈ f.tags) ∧ sUnmocable ∉ f.tags) ∧
    ((steps cfg0 [] evs)[0]?.map (fun e => (e.file, e.fresh .hpp))) = some (headerA, true) := by
  have hf : files (steps cfg0 [] [.add headerA, .add sourceA, .apply .cpp, .apply .hpp,
      .edit 1 sourceA'.content, .apply .hpp, .edit 0 headerA.content]) = [headerA, sourceA'] := by
    decide +kernel
  refine ⟨by simp, ?_, ?_, by decide +kernel⟩
  · rw [hf]; intro f hf; apply plain_of; revert f; decide
  · rw [hf]
    intro f hf hs
    simp only [List.mem_cons, List.not_mem_nil, or_false] at hf
    rcases hf with rfl | rfl
    · exact absurd ((isSource_iff _).mpr hs) (by decide)
    · decide

/-- `C120_included` for paths with and without directories; other files do not count. -/
example :
    (scanFile ⟨[sCpp], ['x'], ⟨false, false,
      [incA, ['m','o','c','_','b','.','c','p','p'], ['m','o','c','_','b','.','h'], ['a','.','h'],
       ['m','o','c','_','x','/','b','.','c','p','p']]⟩⟩).included = [['a'], ['b']] := by
  decide +kernel

/-- `C120_unmocable`: nothing is created for such a file although it contains a macro. -/
example : (steps cfg0 [] [.add ⟨[sHpp, sUnmocable], baseA, ⟨true, false, []⟩⟩, .scan 0, .apply .hpp]).map
    (fun e => (e.out .hpp, e.scan.map (·.qobject))) = [([], some true)] := by
  decide +kernel

end Verif.Moc
