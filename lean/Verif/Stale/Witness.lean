import Verif.Stale.Props
import Verif.Stale.Probes
/-!
# C53: examples, and what is missed
-/
namespace Verif.Stale

def wEmpty : World := ⟨10, fun _ => none, fun _ => 1, fun _ _ => [], id, fun _ => [], fun _ => []⟩

/-- A project file, a source file and a directory with one file. -/
def w0 : World := { wEmpty with
  content := fun p => if p = ['p'] then some ['1'] else if p = ['s'] then some [] else none
  expand := fun x => if x = 0 then [['d', 'a']] else []
  wildDirs := fun x => if x = 0 then [['d']] else [] }

/-- Reads the project file, looks for source files and wildcards, and has a probe that asks for a file. -/
def exLoader : Loader where
  prog := fun c _ => .ask (.read ['p']) fun a => .ask (.source ['p'] ['s']) fun b => .ask (.source ['p'] ['t']) fun b' =>
    .ask (.wild ['p'] 0) fun l => .probe ⟨0, 0, 0⟩ fun v => .ret (c + v + (if a = .text ['1'] then 10 else 20) +
      (if b = .bool true then 100 else 200) + (if b' = .bool true then 1000 else 2000) +
      (if l = .paths [['d', 'a']] then 10000 else 20000))
  configure := fun _ _ => .ask (.exists ['f']) fun a => .ret (if a = .bool true then 1 else 2)
  providerDirs := fun _ => []

def exAsked : List (Query × Answer) :=
  [(.exists ['f'], .bool false), (.wild ['p'] 0, .paths [['d', 'a']]), (.source ['p'] ['t'], .bool false),
   (.source ['p'] ['s'], .bool true), (.read ['p'], .text ['1'])]

/-- Later: a file that does not matter has been written. -/
def wLater : World := { w0 with
  now := 30
  content := fun p => if p = ['x'] then some [] else w0.content p
  mtime := fun p => if p = ['x'] then 20 else 1 }

def pNone : Params := ⟨true, false, 0, 0, false⟩

def exStored : Stored := (resolve exLoader false [] 0 0 (fun _ => w0)).getD ⟨0, Rec.empty, 0, 0, 0, 0⟩

example : resolve exLoader false [] 0 0 (fun _ => w0) = some exStored ∧ exStored.result = 12112 ∧
    exStored.record.asked = exAsked ∧ exStored.record.reused = false := ⟨rfl, rfl, rfl, rfl⟩

/-- C53_probes: with another configuration it is resolved again, and the probe's earlier value is used. -/
example : History exLoader exStored ∧ necessary exLoader ⟨true, false, 5, 0, false⟩ wLater exStored = true ∧
    ∃ st', load exLoader ⟨true, false, 5, 0, false⟩ (fun _ => wLater) exStored = some st' ∧ st'.result = 12117 ∧
      st'.record.reused = true :=
  ⟨.first false 0 0 (fun _ => w0) _ rfl, rfl, _, rfl, rfl, rfl⟩

example : Consistent exStored.record := by
  intro q a a' _ h h'
  have he : exStored.record.asked = exAsked := rfl
  rw [he] at h h'
  simp [exAsked] at h h'
  grind

example : ∀ q a, (q, a) ∈ exStored.record.asked → q.Tracked := by
  intro q a h
  have he : exStored.record.asked = exAsked := rfl
  rw [he] at h
  simp only [exAsked, List.mem_cons, Prod.mk.injEq, List.not_mem_nil, or_false] at h
  rcases h with ⟨rfl, _⟩ | ⟨rfl, _⟩ | ⟨rfl, _⟩ | ⟨rfl, _⟩ | ⟨rfl, _⟩ <;> trivial

example : Honest (fun _ => w0) exStored.end_ wLater where
  clock := fun _ _ _ => Nat.le_refl _
  later := by
    intro i p _ h
    have h' : w0.content p ≠ wLater.content p := h
    show 10 < wLater.mtime p
    by_cases hx : p = ['x']
    · subst hx; decide
    · simp [wLater, hx] at h'

example : Settled exLoader exStored wLater := by
  intro p a _ h
  simp [generated, exLoader] at h

example : SourcesKept exStored wLater := by
  intro pr p h
  have he : exStored.record.asked = exAsked := rfl
  rw [he] at h
  simp [exAsked] at h
  rw [h.2]
  rfl

example : necessary exLoader pNone wLater exStored = false ∧ scratch exLoader 0 0 wLater = some 12112 := ⟨rfl, rfl⟩

/-- The missing source file appears. -/
example : necessary exLoader pNone { wLater with content := fun p => if p = ['t'] then some [] else w0.content p } exStored
    = true := rfl

/-- The wildcards match another file. -/
example : necessary exLoader pNone { wLater with expand := fun _ => [] } exStored = true := rfl

/-- The environment is another one: noticed only if it is to be overridden. -/
example : necessary exLoader { pNone with env := 1 } wLater exStored = true ∧
    necessary exLoader { pNone with env := 1, override := false } wLater exStored = false := ⟨rfl, rfl⟩

/-- The conditions of `C54_quiet` are met. -/
example : (∀ q a, (q, a) ∈ exStored.record.asked → answer wLater q = a) ∧
    (∀ pr ∈ exStored.record.products, pr ∈ exStored.record.files) ∧
    (∀ p ∈ exStored.record.files, wLater.mtime p ≤ exStored.start) ∧
    (∀ x ∈ exStored.record.wilds, ∀ e ∈ x.2.2.1, wLater.mtime e.1 ≤ e.2) := by
  refine ⟨?_, by decide, by decide, by decide⟩
  intro q a h
  have he : exStored.record.asked = exAsked := rfl
  rw [he] at h
  simp only [exAsked, List.mem_cons, Prod.mk.injEq, List.not_mem_nil, or_false] at h
  rcases h with ⟨rfl, rfl⟩ | ⟨rfl, rfl⟩ | ⟨rfl, rfl⟩ | ⟨rfl, rfl⟩ | ⟨rfl, rfl⟩ <;> rfl

/-- A project that asks one thing after reading its file. -/
def asks (q : Query) (a : Answer) : Loader where
  prog := fun _ _ => .ask (.read ['p']) fun _ => .ask q fun b => .ret (if b = a then 1 else 2)
  configure := fun _ _ => .ret 0
  providerDirs := fun _ => []

/-- **C53 finding.** A change of what `File.canonicalFilePath()` returns is not noticed. -/
theorem C53_canonical_path_forgotten : Missed (asks (.canonical ['f']) (.text ['f'])) (fun _ => w0)
    { w0 with now := 30, canonical := fun _ => ['g'] } := ⟨_, rfl, rfl, by decide⟩

/-- **C53 finding.** A file that appears in a directory where the loader looks for modules, imports or referenced
    projects is not noticed. -/
theorem C53_new_module_forgotten : Missed (asks (.lookup ['d']) (.paths [])) (fun _ => w0)
    { w0 with now := 30, listing := fun _ _ => [['d', 'm']], mtime := fun p => if p = ['d'] then 20 else 1 } :=
  ⟨_, rfl, rfl, by decide⟩

/-- **C53 finding.** A change of a file that a script has read is not noticed. -/
theorem C53_text_file_forgotten : Missed (asks (.text ['s']) (.text [])) (fun _ => w0)
    { w0 with
      now := 30
      content := fun p => if p = ['s'] then some ['x'] else w0.content p
      mtime := fun p => if p = ['s'] then 20 else 1 } := ⟨_, rfl, rfl, by decide⟩

/-- **C53 finding.** A project file that is replaced by an older one is not noticed. -/
theorem C53_older_file_missed : Missed
    ⟨fun _ _ => .ask (.read ['p']) fun a => .ret (if a = .text ['1'] then 1 else 2), fun _ _ => .ret 0, fun _ => []⟩
    (fun _ => w0)
    { w0 with
      now := 30
      content := fun p => if p = ['p'] then some ['2'] else w0.content p
      mtime := fun _ => 0 } := ⟨_, rfl, rfl, by decide⟩

/-- **C53 finding.** A source file that vanishes is not noticed, although resolving from scratch would fail or warn. -/
theorem C53_vanished_source_missed : Missed (asks (.source ['p'] ['s']) (.bool true)) (fun _ => w0)
    { w0 with now := 30, content := fun p => if p = ['s'] then none else w0.content p } := ⟨_, rfl, rfl, by decide⟩

/-- **C53 finding.** If the answer to a question changes while the project is being resolved, and the question is asked
    again, what was made of the first answer stays. -/
theorem C53_change_while_resolving_missed : Missed
    ⟨fun _ _ => .ask (.exists ['f']) fun a => .ask (.exists ['f']) fun _ => .ret (if a = .bool true then 1 else 2),
      fun _ _ => .ret 0, fun _ => []⟩
    (fun i => if i = 0 then w0 else
      { w0 with now := 11, content := fun p => if p = ['f'] then some [] else w0.content p })
    { w0 with now := 30, content := fun p => if p = ['f'] then some [] else w0.content p } := ⟨_, rfl, rfl, by decide⟩

/-- A project with a probe that asks for a file. -/
def probing : Loader where
  prog := fun _ _ => .ask (.read ['p']) fun _ => .probe ⟨0, 0, 0⟩ .ret
  configure := fun _ _ => .ask (.exists ['f']) fun a => .ret (if a = .bool true then 1 else 2)
  providerDirs := fun _ => []

def wF : World := { w0 with now := 30, content := fun p => if p = ['f'] then some [] else w0.content p }

/-- The project file has been touched. -/
def wTouched : World := { w0 with now := 30, mtime := fun p => if p = ['p'] then 20 else 1 }

def wTouchedF : World := { wTouched with
  now := 40
  content := fun p => if p = ['f'] then some [] else w0.content p }

/-- **C53 finding.** If a file appears that a probe has asked for, this is noticed, and the project is resolved again,
    but the probe is not run, and then the file is forgotten: the project stays as it was. -/
theorem C53_probe_not_run_again : ∃ st st', resolve probing false [] 0 0 (fun _ => w0) = some st ∧
    necessary probing pNone wF st = true ∧ load probing pNone (fun _ => wF) st = some st' ∧
    scratch probing 0 0 wF ≠ some st'.result ∧ necessary probing pNone wF st' = false :=
  ⟨_, _, rfl, rfl, rfl, by decide, rfl⟩

/-- **C53 finding.** If a project is resolved again for another reason, what its probes asked for is forgotten, as they
    are not run: later changes are not noticed any more. -/
theorem C53_probe_questions_forgotten : ∃ st st', resolve probing false [] 0 0 (fun _ => w0) = some st ∧
    load probing pNone (fun _ => wTouched) st = some st' ∧ scratch probing 0 0 wTouched = some st'.result ∧
    necessary probing pNone wTouchedF st = true ∧ necessary probing pNone wTouchedF st' = false ∧
    scratch probing 0 0 wTouchedF ≠ some st'.result := ⟨_, _, rfl, rfl, by decide, rfl, rfl, by decide⟩

/-- Forcing helps. -/
example : ∃ st st', resolve probing false [] 0 0 (fun _ => w0) = some st ∧
    load probing { pNone with forceProbes := true, forceResolve := true } (fun _ => wF) st = some st' ∧
    st.result = 2 ∧ st'.result = 1 := ⟨_, _, rfl, rfl, rfl, rfl⟩

/-- A project whose probe imports a file and then asks for another one. -/
def importing : Loader where
  prog := fun _ _ => .probe ⟨0, 0, 0⟩ .ret
  configure := fun _ _ => .ask (.read ['s']) fun a => .ask (.exists ['f']) fun _ =>
    .ret (if a = .text [] then 1 else 2)
  providerDirs := fun _ => []

/-- After the first question, the imported file is modified. -/
def wImport (i : Nat) : World := { w0 with
  now := 10 + i
  content := fun p => if i ≠ 0 ∧ p = ['s'] then some ['x'] else w0.content p
  mtime := fun p => if i ≠ 0 ∧ p = ['s'] then 11 else 1 }

/-- **C53 finding.** A probe that imports a file that is modified before the probe ends is taken to have seen the new
    file: the project is resolved again, but the probe is not run. -/
theorem C53_import_modified_while_probing : ∃ st st', resolve importing false [] 0 0 wImport = some st ∧
    necessary importing pNone (wImport 20) st = true ∧
    load importing pNone (fun i => wImport (20 + i)) st = some st' ∧ scratch importing 0 0 (wImport 20) ≠ some st'.result ∧
    necessary importing pNone (wImport 30) st' = false := ⟨_, _, rfl, rfl, rfl, by decide, rfl⟩

end Verif.Stale
