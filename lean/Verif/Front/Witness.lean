import Verif.Front.Props
/-! # Concrete cases and findings -/
namespace Verif.Front

/-- Playing a list of events. -/
def play (u : Setup) (es : List Ev) : State := es.foldl (step u) (start u)

/-- A computable version of `Running`. -/
def runs (es : List Ev) (out : List Effect) (j : Job) : Bool :=
  (out.filterMap Effect.starts).contains j && !es.contains (.finished j true) &&
    !es.contains (.finished j false)

/-- Whether all events of a list can happen, one after the other. -/
def playable (u : Setup) : List Ev → List Ev → State → Bool
  | _, [], _ => true
  | es, e :: l, s =>
    s.exit.isNone && (match e with | .finished j _ => runs es s.out j | _ => true) &&
      playable u (es ++ [e]) l (step u s e)

theorem running_of {es : List Ev} {out : List Effect} {j : Job} (h : runs es out j = true) :
    Running es out j := by
  simp only [runs, Bool.and_eq_true, List.contains_iff_mem, Bool.not_eq_eq_eq_not, Bool.not_true] at h
  obtain ⟨⟨h1, h2⟩, h3⟩ := h
  refine ⟨started_iff.2 h1, ?_⟩
  intro ok hm
  cases ok with
  | true =>
    have := List.contains_iff_mem.2 hm
    rw [h2] at this
    cases this
  | false =>
    have := List.contains_iff_mem.2 hm
    rw [h3] at this
    cases this

theorem hist_go {u : Setup} : ∀ (l es : List Ev) (s : State), Hist u es s → playable u es l s = true →
    Hist u (es ++ l) (l.foldl (step u) s) := by
  intro l
  induction l with
  | nil => intro es s h _; simpa using h
  | cons e l ih =>
    intro es s h hp
    simp only [playable, Bool.and_eq_true, Option.isNone_iff_eq_none] at hp
    obtain ⟨⟨hx, hr⟩, hp⟩ := hp
    have h1 : Hist u (es ++ [e]) (step u s e) := by
      refine Hist.step e h hx ?_
      rintro j ok rfl
      exact running_of hr
    have := ih _ _ h1 hp
    simpa using this

theorem hist_of {u : Setup} (es : List Ev) (h : playable u [] es (start u) = true) :
    Hist u es (play u es) := hist_go es [] (start u) Hist.start h

/-! ## A build of two configurations -/

def debug : Conf := { profile := "gcc", products := ["app", "lib"] }
def release : Conf := { profile := "clang", products := ["app", "lib", "tests"] }

def two : Setup := { cmd := .build, configs := [debug, release], names := ["tests", "lib"] }

def twoOk : List Ev :=
  [.finished (.resolve 1) true, .tick, .finished (.resolve 0) true, .finished (.work 0) true,
   .finished (.work 1) true]

example : Hist two twoOk (play two twoOk) := hist_of _ (by decide +kernel)

example : (play two twoOk).exit = some 0 ∧
    (play two twoOk).out = [.resolve 0, .resolve 1, .build 1 (some ["lib", "tests"]) 4,
      .build 0 (some ["lib"]) 4] := ⟨by decide +kernel, by decide +kernel⟩

/-- The hypotheses of `C100_success` hold. -/
example : Sound two ∧ ¬ Failed twoOk ∧ Ev.interrupt ∉ twoOk := by
  refine ⟨⟨by decide, ?_, by decide, by decide, by decide, by decide⟩, ?_, by decide⟩
  · unfold NamesOk; decide
  · rintro ⟨j, hj⟩
    simp [twoOk] at hj

/-- A failure while the other configuration is being built. -/
def twoFail : List Ev :=
  [.finished (.resolve 1) true, .finished (.resolve 0) true, .finished (.work 0) false]

example : Hist two twoFail (play two twoFail) := hist_of _ (by decide +kernel)

example : (play two twoFail).exit = none ∧ Failed twoFail ∧
    Running (twoFail ++ [.tick]) (step two (play two twoFail) .tick).out (.work 1) ∧
    Effect.cancel (.work 1) ∈ (step two (play two twoFail) .tick).out ∧
    (play two (twoFail ++ [.tick, .finished (.work 1) true])).exit = some 1 :=
  ⟨by decide +kernel, ⟨.work 0, by decide⟩, running_of (by decide +kernel), by decide +kernel,
    by decide +kernel⟩

/-- A name of no product. -/
def typo : Setup := { two with names := ["test"] }

example : ¬ NamesOk typo ∧
    Hist typo [.finished (.resolve 1) true, .finished (.resolve 0) true]
      (play typo [.finished (.resolve 1) true, .finished (.resolve 0) true]) ∧
    (play typo [.finished (.resolve 1) true, .finished (.resolve 0) true]).exit = some 1 :=
  ⟨by unfold NamesOk; decide, hist_of _ (by decide +kernel), by decide +kernel⟩

/-- A program is built, installed and run, and its exit code handed on. -/
def runIt : Setup := { cmd := .run, configs := [debug], names := ["app"], runCode := some 3 }

def runOk : List Ev :=
  [.finished (.resolve 0) true, .finished (.work 0) true, .finished .install true]

example : Hist runIt runOk (play runIt runOk) ∧ (play runIt runOk).exit = some 3 ∧
    (play runIt runOk).out = [.resolve 0, .build 0 (some ["app"]) 4, .install (some ["app"]), .run] :=
  ⟨hist_of _ (by decide +kernel), by decide +kernel, by decide +kernel⟩

/-- With the option `--jobs`, or with preferences that are the same, the numbers are right. -/
example : ∀ c ∈ two.configs, ∀ d ∈ two.configs, two.prefJobs c.profile = two.prefJobs d.profile := by
  intro c _ d _; rfl

/-! ## Findings -/

/-- The user interrupts while the program is being built; the frontend tells the build job to stop,
which has just finished. -/
def lost : List Ev :=
  [.finished (.resolve 0) true, .interrupt, .tick, .finished (.work 0) true, .finished .install true]

def installIt : Setup := { cmd := .install, configs := [debug] }

/-- **C100 finding.** `install` ends with exit code 0, having installed everything, although the user
interrupted during the build and the frontend had noticed
(commandlinefrontend.cpp 253-260 does not look at the cancel status). -/
theorem C100_interrupt_lost : ∃ (u : Setup) (es : List Ev) (s : State), Hist u es s ∧
    u.cmd = .install ∧ Ev.interrupt ∈ es ∧ Effect.cancel (.work 0) ∈ s.out ∧ s.exit = some 0 :=
  ⟨installIt, lost, play installIt lost, hist_of _ (by decide +kernel), rfl, by decide,
    by decide +kernel, by decide +kernel⟩

/-- **C100 finding.** If the user interrupts during the installation, the frontend ends while the
installation is running: it is in none of the lists of jobs, so it is neither told to stop nor
waited for (commandlinefrontend.cpp 92-111, 702-721). -/
theorem C100_install_left : ∃ (u : Setup) (es : List Ev) (s : State), Hist u es s ∧
    s.exit = some 1 ∧ Running es s.out .install ∧ Effect.cancel .install ∉ s.out := by
  refine ⟨installIt, [.finished (.resolve 0) true, .finished (.work 0) true, .interrupt, .tick],
    play installIt [.finished (.resolve 0) true, .finished (.work 0) true, .interrupt, .tick],
    hist_of _ (by decide +kernel), by decide +kernel, running_of (by decide +kernel),
    by decide +kernel⟩

/-- **C101 finding.** `run` starts the installation and then the program although the user
interrupted while it was being built (commandlinefrontend.cpp 253-260). -/
theorem C101_installs_anyway : ∃ (u : Setup) (es : List Ev) (s : State), Hist u es s ∧
    s.exit = none ∧ Ev.interrupt ∈ es ∧ ¬ Started s.out .install ∧
    Started (step u s (.finished (.work 0) true)).out .install ∧
    Effect.run ∈ (step u (step u s (.finished (.work 0) true)) (.finished .install true)).out := by
  refine ⟨runIt, lost.take 3, play runIt (lost.take 3), hist_of _ (by decide +kernel),
    by decide +kernel, by decide, ?_, ?_, by decide +kernel⟩
  · rw [started_iff]; decide +kernel
  · rw [started_iff]; decide +kernel

/-- **C101 finding.** `generate` writes the project files although the build of one configuration has
failed, if another one finishes after it (commandlinefrontend.cpp 261-263). -/
theorem C101_generates_anyway : ∃ (u : Setup) (es : List Ev) (s : State), Hist u es s ∧
    Failed es ∧ Effect.generate ∈ s.out ∧ s.exit = some 1 := by
  refine ⟨{ two with cmd := .generate }, twoFail ++ [.tick, .finished (.work 1) true],
    play { two with cmd := .generate } (twoFail ++ [.tick, .finished (.work 1) true]),
    hist_of _ (by decide +kernel), ⟨.work 0, by decide⟩, by decide +kernel, by decide +kernel⟩

/-- Profiles with different preferences. -/
def mixed : Setup := { two with prefJobs := fun p => if p = "gcc" then 1 else 16 }

/-- **C102 finding.** A configuration is built with the number of jobs that the user prefers for the
profile of another one: the one that happened to be resolved first
(commandlinefrontend.cpp 470-479). -/
theorem C102_jobs_of_another_profile : ∃ (u : Setup) (es : List Ev) (s : State), Hist u es s ∧
    ∃ i ps n c, Effect.build i ps n ∈ s.out ∧ u.configs[i]? = some c ∧ u.prefJobs c.profile = 1 ∧
      rightJobs u c = 1 ∧ n = 16 := by
  refine ⟨mixed, [.finished (.resolve 1) true, .finished (.resolve 0) true],
    play mixed [.finished (.resolve 1) true, .finished (.resolve 0) true],
    hist_of _ (by decide +kernel), 0, some ["lib"], 16, debug, by decide +kernel, rfl, rfl, rfl, rfl⟩

end Verif.Front
