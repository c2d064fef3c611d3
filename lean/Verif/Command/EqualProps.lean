import Verif.Command.ResponseProps
/-! # C78: the output of a process, C79: comparing commands -/

namespace Verif.Command
open Verif.Shell (Os Str)

/-! ## C78 -/

/-- **C78.** The lines reported are the lines of the output that are not empty, in their order, whether or not the last line is
terminated. -/
theorem C78_lines (content : Str) :
    Spec.NonEmptyLines content (getProcessOutput [] content).lines ∧ (getProcessOutput [] content).file = none := by
  have key : ∀ s, Spec.Directories '\n' s (splitSkip '\n' [] s) := fun s => splitSkip_directories '\n' s
  unfold getProcessOutput
  rw [if_neg (by simp)]
  refine ⟨?_, rfl⟩
  simp only
  by_cases h : content.getLast? = some '\n'
  · rw [if_pos h]
    obtain ⟨pre, hp⟩ : ∃ pre, content = pre ++ ['\n'] := by
      have hne : content ≠ [] := by rintro rfl; simp at h
      refine ⟨content.dropLast, ?_⟩
      rw [List.getLast?_eq_some_getLast hne] at h
      have := List.dropLast_concat_getLast hne
      rw [Option.some.inj h] at this
      exact this.symm
    subst hp
    rw [List.dropLast_concat]
    have h0 : Spec.Directories '\n' [] [] := ⟨[[]], by simp, by simp, rfl, by simp⟩
    have := directories_append (key pre) h0
    rw [List.append_nil] at this
    exact this
  · rw [if_neg h]
    exact key content

/-- **C78.** With a file for the output, the file gets exactly the output and nothing is reported. -/
theorem C78_redirected (path content : Str) (h : path ≠ []) :
    (getProcessOutput path content).file = some (path, content) ∧ (getProcessOutput path content).lines = [] := by
  unfold getProcessOutput
  rw [if_pos h]
  exact ⟨rfl, rfl⟩

/-- **C78 finding.** Empty lines are not reported, so that different outputs become the same. -/
theorem C78_empty_lines (a b : Str) : (getProcessOutput [] (a ++ '\n' :: '\n' :: b)).lines =
    (getProcessOutput [] (a ++ '\n' :: b)).lines := by
  obtain ⟨h1, _⟩ := C78_lines (a ++ '\n' :: '\n' :: b)
  obtain ⟨h2, _⟩ := C78_lines (a ++ '\n' :: b)
  have d : ∀ s, Spec.Directories '\n' s (splitSkip '\n' [] s) := fun s => splitSkip_directories '\n' s
  have h0 : Spec.Directories '\n' [] [] := ⟨[[]], by simp, by simp, rfl, by simp⟩
  have e1 := directories_unique (c := '\n') h1 (directories_append (d a) (directories_append h0 (d b)))
  have e2 := directories_unique (c := '\n') h2 (directories_append (d a) (d b))
  rw [e1, e2]; rfl

/-! ## C79 -/

theorem envEq_iff (os : Os) (a b : Env) : envEq os a b = true ↔ ∀ v, lookup os a v = lookup os b v := by
  unfold envEq
  rw [Bool.and_eq_true, List.all_eq_true, List.all_eq_true]
  constructor
  · rintro ⟨h1, h2⟩ v
    have key : ∀ e : Env, (∀ k ∈ e.map (·.1), (lookup os a k == lookup os b k) = true) → (lookup os e v).isSome = true →
        lookup os a v = lookup os b v := by
      intro e he hs
      rw [← any_key_iff, List.any_eq_true] at hs
      obtain ⟨k, hk, hv⟩ := hs
      rw [lookup_congr hv, lookup_congr hv]
      exact eq_of_beq (he k hk)
    cases ha : lookup os a v with
    | some x => rw [← ha]; exact key a h1 (by rw [ha]; rfl)
    | none =>
      cases hb : lookup os b v with
      | none => rfl
      | some x => rw [← ha, ← hb]; exact key b h2 (by rw [hb]; rfl)
  · intro h
    exact ⟨fun k _ => by rw [h k]; simp, fun k _ => by rw [h k]; simp⟩

/-- Two commands are the same in everything they are given. -/
def Same (os : Os) (a b : Command) : Prop :=
  a.description = b.description ∧ a.extendedDescription = b.extendedDescription ∧ a.highlight = b.highlight ∧
  a.ignoreDryRun = b.ignoreDryRun ∧ a.silent = b.silent ∧ a.jobPool = b.jobPool ∧ a.timeout = b.timeout ∧
  a.properties = b.properties ∧ a.program = b.program ∧ a.arguments = b.arguments ∧ a.workingDir = b.workingDir ∧
  a.maxExitCode = b.maxExitCode ∧ a.stdoutFilterFunction = b.stdoutFilterFunction ∧
  a.stderrFilterFunction = b.stderrFilterFunction ∧ a.responseFileThreshold = b.responseFileThreshold ∧
  a.responseFileArgumentIndex = b.responseFileArgumentIndex ∧ a.responseFileUsagePrefix = b.responseFileUsagePrefix ∧
  a.responseFileSeparator = b.responseFileSeparator ∧ a.stdoutFilePath = b.stdoutFilePath ∧
  a.stderrFilePath = b.stderrFilePath ∧ a.relevantEnvVars = b.relevantEnvVars ∧
  (∀ v, lookup os a.relevantEnvValues v = lookup os b.relevantEnvValues v) ∧
  (∀ v, lookup os a.environment v = lookup os b.environment v)

/-- **C79.** Two process commands are equal exactly if they are the same in everything: a change of anything in a command is
noticed, and nothing else is. -/
theorem C79_equal_iff_same (os : Os) (a b : Command) : equals os a b = true ↔ Same os a b := by
  unfold equals baseEquals Same
  simp only [Bool.and_eq_true, beq_iff_eq, envEq_iff, and_assoc]

/-- **C79.** Lists of commands are equal exactly if they are equally long and equal at each position. -/
theorem C79_list_equal (os : Os) (as bs : List Command) :
    listEquals os as bs = true ↔
      as.length = bs.length ∧ ∀ i (ha : i < as.length) (hb : i < bs.length), Same os as[i] bs[i] := by
  induction as generalizing bs with
  | nil =>
    cases bs with
    | nil => simp [listEquals]
    | cons b bs => simp [listEquals]
  | cons a as ih =>
    cases bs with
    | nil => simp [listEquals]
    | cons b bs =>
      rw [listEquals, Bool.and_eq_true, C79_equal_iff_same, ih]
      constructor
      · rintro ⟨h1, h2, h3⟩
        refine ⟨by simp [h2], ?_⟩
        intro i ha hb
        cases i with
        | zero => exact h1
        | succ i => exact h3 i (by simpa using ha) (by simpa using hb)
      · rintro ⟨h1, h2⟩
        refine ⟨h2 0 (by simp) (by simp), by simpa using h1, ?_⟩
        intro i ha hb
        exact h2 (i + 1) (by simpa using ha) (by simpa using hb)

/-- **C79.** Equal commands start the same process: the same program with the same arguments, working directory and environment,
and with the same response file, whatever the state of the machine. -/
theorem C79_equal_same_process (exec : Str → Bool) (files : Str → Option Str) (tempName : Str) (productEnv buildEnv : Env)
    (cache : Cache) (a b : Command) (h : equals .unix a b = true) :
    let p := (launch exec files tempName productEnv buildEnv cache a).1
    let q := (launch exec files tempName productEnv buildEnv cache b).1
    p.program = q.program ∧ p.arguments = q.arguments ∧ p.workingDir = q.workingDir ∧
      ∀ v, lookup .unix p.environment v = lookup .unix q.environment v := by
  obtain ⟨-, -, -, -, -, -, -, -, h9, h10, h11, -, -, -, h15, h16, h17, h18, -, -, -, -, h23⟩ :=
    (C79_equal_iff_same .unix a b).mp h
  have hs : ∀ program, startArguments files tempName program a = startArguments files tempName program b := by
    intro program
    unfold startArguments
    rw [h10, h15, h16, h17, h18]
  have hm : ∀ v, lookup .unix (mergeEnvironments .unix buildEnv a.environment) v =
      lookup .unix (mergeEnvironments .unix buildEnv b.environment) v := by
    intro v
    have hv : mergedValue .unix buildEnv a.environment v = mergedValue .unix buildEnv b.environment v := by
      unfold mergedValue value
      rw [h23]
    rw [merge_lookup, merge_lookup, h23, hv]
  simp only [launch, h9, h11, hs]
  exact ⟨trivial, trivial, trivial, hm⟩

/-- **C79 finding.** JavaScript commands with the same source code are taken to be the same even if their code belongs to
different imported files, where the same names mean different things. -/
theorem C79_import_scope (a : JsCommand) (scope : Str) : jsEquals a { a with scopeName := scope } = true := by
  simp [jsEquals, baseEquals]

/-- **C79.** Apart from that, equal JavaScript commands have the same source code and the same properties. -/
theorem C79_javascript_partial (a b : JsCommand) (h : jsEquals a b = true) :
    a.sourceCode = b.sourceCode ∧ a.base.properties = b.base.properties ∧ a.base.jobPool = b.base.jobPool ∧
      a.base.timeout = b.base.timeout ∧ a.base.ignoreDryRun = b.base.ignoreDryRun ∧ a.base.silent = b.base.silent ∧
      a.base.description = b.base.description ∧ a.base.extendedDescription = b.base.extendedDescription ∧
      a.base.highlight = b.base.highlight := by
  unfold jsEquals baseEquals at h
  simp only [Bool.and_eq_true, beq_iff_eq, and_assoc] at h
  obtain ⟨h1, h2, h3, h4, h5, h6, h7, h8, h9⟩ := h
  exact ⟨h9, h8, h6, h7, h4, h5, h1, h2, h3⟩

/-! ## What is recorded -/

theorem record_keys (pe : Env) (v : Str) (keys : List Str) (e : Env) :
    lookup .unix (keys.foldl (fun e k => insert .unix e k (value .unix pe k)) e) v =
      if v ∈ keys then some (value .unix pe v) else lookup .unix e v := by
  induction keys generalizing e with
  | nil => simp
  | cons k ks ih =>
    rw [List.foldl_cons, ih]
    by_cases hk : v = k
    · subst hk
      simp [lookup_insert_same _ _ (same_refl .unix v)]
    · have : sameVar .unix v k = false := by simpa [sameVar] using hk
      simp [hk, lookup_insert_other _ _ this]

/-- **C76.** The variables a command says are relevant, and PATH if its program must be looked for, are recorded with the values
they have in the environment in which the program is looked for; nothing else is recorded. -/
theorem C76_recorded (productEnv : Env) (c : Command) (v : Str) :
    lookup .unix (recordEnv productEnv c) v =
      if v ∈ c.relevantEnvVars ∨ (c.program.head? ≠ some '/' ∧ v = "PATH".toList) then
        some (value .unix productEnv v)
      else none := by
  unfold recordEnv
  rw [record_keys]
  have hr : v ∈ relevantVars c ↔ v ∈ c.relevantEnvVars ∨ (c.program.head? ≠ some '/' ∧ v = "PATH".toList) := by
    unfold relevantVars
    split
    · rename_i r hp; rw [hp]; simp
    · rename_i hp
      have : c.program.head? ≠ some '/' := by
        intro h
        cases hc : c.program with
        | nil => rw [hc] at h; simp at h
        | cons x xs => rw [hc] at h; exact hp xs (by rw [hc]; simp at h; rw [h])
      simp [this]
  by_cases h : v ∈ relevantVars c
  · rw [if_pos h, if_pos (hr.mp h)]
  · rw [if_neg h, if_neg (fun hh => h (hr.mpr hh))]; rfl

end Verif.Command
