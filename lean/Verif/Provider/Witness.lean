import Verif.Provider.Props
/-! # Cases for C98, C99 -/
namespace Verif.Provider

/-- One search path has the provider `Qt`, in a directory of its own, the other `conan.qbs`; `Qt` is
an eager one and knows two sets of modules, `conan` looks up one module at a time. -/
def w0 : World Nat where
  fileExists f := f == "/s/module-providers/Qt/provider.qbs" ||
    f == "/t/module-providers/conan.qbs"
  eager f _ _ := f == "/s/module-providers/Qt/provider.qbs"
  eval f _ m c _ :=
    if f == "/s/module-providers/Qt/provider.qbs" then some ["core", "extra"]
    else match m with
      | some ["broken"] => none
      | some m => if c.isEmpty then some m else some ("configured" :: m)
      | none => none
  hash c q := if c.isEmpty && q.isEmpty then "0" else "1"
  buildDir := "/b"

/-- A product that names no providers. -/
def p1 : Prod Nat := ⟨[none, none], [], [], [], ["/s", "/t"]⟩
/-- A product in a project that names a provider; the provider is configured by both the product and
the profile. -/
def p2 : Prod Nat :=
  ⟨[none, some [["conan"]]], [(["conan"], [("a", 1), ("b", 2)])], [(["conan"], [("b", 3)])], [],
   ["/s", "/t"]⟩
/-- A product that asks for a provider that does not exist. -/
def p3 : Prod Nat := ⟨[some [["Qt"], ["none"]]], [], [], [], ["/s", "/t"]⟩

def t1 : Thread Nat := { todo := [⟨p1, ["Qt", "gui"]⟩, ⟨p1, ["zlib"]⟩] }
def t2 : Thread Nat := { todo := [⟨p1, ["Qt", "network"]⟩, ⟨p2, ["fmt"]⟩, ⟨p2, ["broken"]⟩, ⟨p3, ["Qt"]⟩] }
def sched0 : List Nat := [0, 1, 1, 0, 0, 1, 0, 1, 1, 0, 1, 1, 0, 1, 1, 0, 1, 1, 1, 1, 1, 1, 1]

/-- Non-vacuity for `C98_answers_partial`: two threads that run at the same time, with all kinds of
outcomes. -/
example : ((session w0 false false [t1, t2] sched0 ⟨[], []⟩).2.threads.map fun t =>
      t.done.map (·.2)) =
    [[.ok true ["/b/genmodules/Qt/0/core", "/b/genmodules/Qt/0/extra"], .ok false []],
     [.ok true ["/b/genmodules/Qt/0/core", "/b/genmodules/Qt/0/extra"],
      .ok true ["/b/genmodules/conan/1/configured", "/b/genmodules/conan/1/fmt"],
      .failed ["conan"], .unknown ["none"]]] := by decide +kernel

/-- The eager provider ran once for both threads. (It was asked for by name as well, which is
another key.) -/
example : ((session w0 false false [t1, t2] sched0 ⟨[], []⟩).2.runs.map fun k =>
      (k.name, k.module, k.lookup)) =
    [(["Qt"], none, .scoped), (["conan"], some ["fmt"], .named), (["Qt"], none, .named)] := by
  decide +kernel

theorem of0 : Of [p1, p2, p3] [t1, t2] := by
  intro t ht
  simp only [List.mem_cons, List.not_mem_nil, or_false] at ht
  rcases ht with rfl | rfl <;> refine ⟨rfl, rfl, ?_⟩ <;> simp [t1, t2]

theorem agree0 : Agree w0 [p1, p2, p3] := by
  intro p hp q hq n l f
  simp only [List.mem_cons, List.not_mem_nil, or_false] at hp hq
  have h : ∀ r, r = p1 ∨ r = p2 ∨ r = p3 → r.searchPaths = ["/s", "/t"] := by
    rintro r (rfl | rfl | rfl) <;> rfl
  rw [h p hp, h q hq]

/-- The hypotheses of `C98_answers_partial` hold here, also in a second session. -/
example : ∃ d, Reach w0 [p1, p2, p3] d ∧ d.stored ≠ [] ∧ Agree w0 [p1, p2, p3] ∧
    Of [p1, p2, p3] [t1, t2] :=
  ⟨(session w0 false false [t1, t2] sched0 ⟨[], []⟩).1, .session false false _ _ .empty of0,
   by decide +kernel, agree0, of0⟩

example : configOf p2 ["conan"] = [("a", 1), ("b", 3)] := by decide +kernel
example : ((mapFor ["conan"] p2.build).map (·.1)).Nodup := by decide +kernel
example : providersToRun p1 ["Qt", "gui"] = [(["Qt", "gui"], .scoped), (["Qt"], .scoped)] := by
  decide +kernel
example : providersToRun p2 ["Qt", "gui"] = [(["conan"], .named)] := by decide +kernel

/-! ## Other search paths -/

/-- A product whose search paths do not have `conan`. -/
def p4 : Prod Nat := { p2 with searchPaths := ["/s"] }

/-- The outcomes of two requests for the same module. -/
def outcomes (a b : Prod Nat) : List (List Outcome) :=
  (session w0 false false [{ todo := [⟨a, ["fmt"]⟩, ⟨b, ["fmt"]⟩] }] [0, 0, 0, 0, 0, 0, 0, 0]
    ⟨[], []⟩).2.threads.map fun t => t.done.map (·.2)

/-- **C98 finding.** A product that has no such provider in its search paths gets what the provider
gave to another product, and if it comes first, the other product is told that its provider is
unknown, although it has one: the search paths are not part of what results are remembered under
(moduleproviderloader.cpp 149-188).  Hence the same project resolves or not depending on which of
two products comes first. -/
theorem C98_search_paths :
    outcomes p2 p4 =
      [[.ok true ["/b/genmodules/conan/1/configured", "/b/genmodules/conan/1/fmt"],
        .ok true ["/b/genmodules/conan/1/configured", "/b/genmodules/conan/1/fmt"]]] ∧
    outcomes p4 p2 = [[.unknown ["conan"], .unknown ["conan"]]] ∧
    Answer w0 p4 ["fmt"] (providersToRun p4 ["fmt"]) (.unknown ["conan"]) ∧
    Answer w0 p2 ["fmt"] (providersToRun p2 ["fmt"])
      (.ok true ["/b/genmodules/conan/1/configured", "/b/genmodules/conan/1/fmt"]) := by
  refine ⟨by decide +kernel, by decide +kernel, ?_, ?_⟩
  · have h : providersToRun p4 ["fmt"] = [(["conan"], .named)] := by decide +kernel
    rw [h]
    exact .unknown (.missing (findFile_none w0 ["conan"] .named _ (by decide +kernel)))
  · have h : providersToRun p2 ["fmt"] = [(["conan"], .named)] := by decide +kernel
    rw [h]
    have hg : Gives w0 p2 ["fmt"] (["conan"], .named)
        (some ["/b/genmodules/conan/1/configured", "/b/genmodules/conan/1/fmt"]) :=
      .runs (f := "/t/module-providers/conan.qbs") (rel := ["configured", "fmt"])
        ((findFile_iff w0 _ _ _ _).1 (by decide +kernel)) (by decide +kernel)
    exact .runs hg .nil

/-! ## Changes between sessions -/

/-- The provider has been changed, or what it looks for has been installed. -/
def w1 : World Nat := { w0 with
  eval := fun _ _ _ _ _ => some ["new"] }

def t3 : Thread Nat := { todo := [⟨p2, ["fmt"]⟩] }

/-- **C98 finding.** In the next session, a request is answered from the stored results, although
the file of the provider has changed since, until the user asks for probes and providers to be run
again (buildgraphloader.cpp 364-365). -/
theorem C98_stale :
    let d := (session w0 false false [t3] [0, 0, 0] ⟨[], []⟩).1
    ((session w1 false false [t3] [0, 0, 0] d).2.threads.map fun t => t.done.map (·.2)) =
      [[.ok true ["/b/genmodules/conan/1/configured", "/b/genmodules/conan/1/fmt"]]] ∧
    ((session w1 false true [t3] [0, 0, 0] d).2.threads.map fun t => t.done.map (·.2)) =
      [[.ok true ["/b/genmodules/conan/1/new"]]] := by decide +kernel

/-! ## Dry runs -/

/-- The same provider with another configuration. -/
def p5 : Prod Nat := { p2 with own := [], build := [] }

/-- What a real session leaves, and a dry run of the project after a change of the
configuration. -/
def d0 : Disk Nat := (session w0 false false [t3] [0, 0, 0] ⟨[], []⟩).1
def d1 : Disk Nat := (session w0 true false [{ todo := [⟨p5, ["fmt"]⟩] }] [0, 0, 0] d0).1

/-- Non-vacuity for `C99_stored_partial`, `C99_real_keeps`, `C99_dry_partial`. -/
example : DirsOk w0 d0 ∧ d0.stored.length = 1 ∧ d0.dirs = [(["conan"], "1")] := by
  refine ⟨?_, by decide +kernel, by decide +kernel⟩
  exact C99_stored_partial w0 false [t3] [0, 0, 0] ⟨[], []⟩ (by intro e he; simp at he)

example : ((session w0 true false [{ todo := [⟨p1, ["Qt"]⟩] }] [0, 0, 0] d0).2.runs).length = 1 ∧
    (session w0 true false [{ todo := [⟨p1, ["Qt"]⟩] }] [0, 0, 0] d0).1.dirs = [(["conan"], "1")] := by
  decide +kernel

/-- **C99 finding.** A dry run that runs a provider removes, with what the provider has made, also
what it had made earlier for another configuration, which the stored build graph refers to
(language.cpp 685-703: the directory that is removed is that of the provider's name, without the
hash of the configuration). -/
theorem C99_dry_removes : DirsOk w0 d0 ∧ d0.stored ≠ [] ∧ d1.stored = d0.stored ∧ d1.dirs = [] ∧
    ¬ DirsOk w0 d1 := by
  refine ⟨?_, by decide +kernel, by decide +kernel, by decide +kernel, ?_⟩
  · exact C99_stored_partial w0 false [t3] [0, 0, 0] ⟨[], []⟩ (by intro e he; simp at he)
  · intro h
    have := h _ (List.mem_cons_self (a :=
      ((⟨["conan"], some ["fmt"], [("a", 1), ("b", 3)], [], .named⟩ : Key Nat),
       (⟨["conan"], [("a", 1), ("b", 3)], some "/t/module-providers/conan.qbs",
         ["/b/genmodules/conan/1/configured", "/b/genmodules/conan/1/fmt"], false⟩ : Info Nat)))
      (l := [])) (by simp)
    revert this
    decide +kernel

/-- **C99 finding.** The next real session with the first configuration does not run the provider
again: it uses search paths in a directory that is gone. -/
theorem C99_dangling :
    let x := session w0 false false [t3] [0, 0, 0] d1
    (x.2.threads.map fun t => t.done.map (·.2)) =
      [[.ok true ["/b/genmodules/conan/1/configured", "/b/genmodules/conan/1/fmt"]]] ∧
    x.2.runs = [] ∧ x.1.dirs = [] := by decide +kernel

end Verif.Provider
