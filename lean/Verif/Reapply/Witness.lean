import Verif.Reapply.Multi
/-!
# C28: concrete cases and findings
-/
namespace Verif.Reapply

deriving instance DecidableEq for Except

/-- A script that makes output 10 + a from input a, and a command that carries what it read. -/
def perInput (env : Nat) : List Art → ScriptResult
  | [a] => .gives [10 + a] [env]
  | _ => .refuses

def world (env : Nat) (inputs : List Art) : World Nat :=
  ⟨env, inputs, [], fun _ => 1, 5, perInput env, false, false, fun _ => [], fun a b => a != b⟩

/-- Paths, inputs and commands of the outputs. -/
def summary (n : Node Nat) : List (Path × List Art × List Nat) :=
  n.outputs.map (fun o => (o.path, o.trafo.inputs, o.trafo.commands))

/-- The node after a first application for inputs 1 and 2. -/
def first : Node Nat := (apply single (world 7 [1, 2]) fresh).1

example : (apply single (world 7 [1, 2]) fresh).2 = .done [[1], [2]] ∧
    summary first = [(11, [1], [7]), (12, [2], [7])] := by decide +kernel

theorem inv_fresh : Inv (fresh : Node Env) :=
  ⟨⟨(fun o h => by cases h), (fun o h => by cases h), (fun o h => by cases h), (fun o h => by cases h),
    List.nodup_nil⟩, (fun o h => by cases h)⟩

theorem uniform_fresh : Uniform (fresh : Node Env) :=
  ⟨(fun o h => by cases h), (fun o h => by cases h), (fun o h => by cases h)⟩

theorem separate_fresh (w : World Env) : Separate w (fresh : Node Env) := fun o h => by cases h

theorem inv_mark {n : Node Env} (hi : Inv n) : Inv (mark n) := by
  have key : ∀ o ∈ (mark n).outputs, ∃ o0 ∈ n.outputs, o.children = o0.children ∧ o.path = o0.path ∧
      o.trafo = { o0.trafo with tracked := true } := by
    intro o ho
    obtain ⟨o0, h0, rfl⟩ := List.mem_map.mp ho
    exact ⟨o0, h0, rfl, rfl, rfl⟩
  refine ⟨⟨?_, ?_, ?_, ?_, ?_⟩, ?_⟩
  · intro o ho
    obtain ⟨o0, h0, e1, _, e3⟩ := key o ho
    rw [e1, e3]
    exact hi.good.single o0 h0
  · intro o ho o' ho' h
    obtain ⟨o0, h0, _, _, e3⟩ := key o ho
    obtain ⟨o1, h1, _, _, f3⟩ := key o' ho'
    rw [e3, f3] at h ⊢
    rw [hi.good.same o0 h0 o1 h1 h]
  · intro o ho o' ho' h
    obtain ⟨o0, h0, _, _, e3⟩ := key o ho
    obtain ⟨o1, h1, _, _, f3⟩ := key o' ho'
    rw [e3, f3] at h ⊢
    rw [hi.good.ids o0 h0 o1 h1 h]
  · intro o ho
    obtain ⟨o0, h0, _, _, e3⟩ := key o ho
    rw [e3]
    exact hi.good.bound o0 h0
  · have : (mark n).outputs.map (·.path) = n.outputs.map (·.path) := by
      unfold mark
      rw [List.map_map]
      rfl
    rw [this]
    exact hi.good.paths
  · intro o ho a ha
    obtain ⟨o0, h0, _, _, e3⟩ := key o ho
    rw [e3] at ha
    exact hi.known o0 h0 a ha

theorem uniform_mark {n : Node Env} (hu : Uniform n) : Uniform (mark n) := by
  refine ⟨?_, ?_, ?_⟩
  · intro o ho o' ho'
    obtain ⟨o0, h0, rfl⟩ := List.mem_map.mp ho
    obtain ⟨o1, h1, rfl⟩ := List.mem_map.mp ho'
    simp only [hu.trafo o0 h0 o1 h1]
  · intro o ho a
    obtain ⟨o0, h0, rfl⟩ := List.mem_map.mp ho
    exact hu.inputs o0 h0 a
  · intro o ho a ha
    obtain ⟨o0, h0, rfl⟩ := List.mem_map.mp ho
    exact hu.children o0 h0 a ha

/-- The nodes of rules that are applied to each input, after any history of applications without error, in any
    worlds, and of resolving the project again. -/
inductive Reached : Node Env → Prop
  | fresh : Reached fresh
  | mark {n} : Reached n → Reached (mark n)
  | apply {n} (w : World Env) : Reached n → w.inputs.Nodup → Separate w n → (apply single w n).2 ≠ .failed →
      Reached (apply single w n).1

/-- C28: the conditions of the theorems hold after every history without errors. -/
theorem C28_histories {n : Node Env} (h : Reached n) : Inv n := by
  induction h with
  | fresh => exact inv_fresh
  | mark _ ih => exact inv_mark ih
  | apply w _ hn hs hok ih => exact (after_single w _ ih hs hn hok).1

/-- C28: and after every history an immediately repeated application does nothing. (Instance of `C28_second` with
    the conditions about the node replaced by its history.) -/
theorem C28_histories_second {n : Node Env} (h : Reached n) (w : World Env) (hn : w.inputs.Nodup)
    (hs : Separate w n) (hok : (apply single w n).2 ≠ .failed)
    (ht : ∀ a, a ∈ w.inputs ∨ a ∈ w.explicit → w.time a ≤ w.now) (hd : w.differs w.env w.env = false)
    (hs' : Separate w (apply single w n).1) : (apply single w (apply single w n).1).2 = .skipped :=
  C28_second w w n (C28_histories h) hs hn hok ht hd ⟨rfl, rfl, rfl, rfl, rfl⟩ hs'

/-! Non-vacuity: after the first application the project is resolved again, with input 2 replaced by 3. -/

theorem first_reached : Reached first :=
  .apply (world 7 [1, 2]) .fresh (by decide) (separate_fresh _) (by decide +kernel)

instance (w : World Nat) (n : Node Nat) : Decidable (Separate w n) :=
  decidable_of_iff (∀ o ∈ n.outputs, ∀ a ∈ w.inputs ++ n.oldInputs, a ∈ o.children ∨ a ∈ o.scanned → a ∈ o.trafo.inputs)
    (by unfold Separate; simp only [List.mem_append])

example : Inv (mark first) ∧ Separate (world 7 [1, 3]) (mark first) ∧ (world 7 [1, 3]).inputs.Nodup ∧
    (apply single (world 7 [1, 3]) (mark first)).2 = .done [[3]] ∧
    summary (apply single (world 7 [1, 3]) (mark first)).1 = [(11, [1], [7]), (13, [3], [7])] :=
  ⟨C28_histories first_reached.mark, by decide +kernel, by decide, by decide +kernel, by decide +kernel⟩

/-- `Pending`, `Gone` and their negations are met. -/
example : Pending (world 7 [1, 3]) (mark first) 3 ∧ Gone (world 7 [1, 3]) (mark first) ∧
    ScriptChanged (world 8 [1, 2]) (mark first) 1 ∧
    (apply single (world 8 [1, 2]) (mark first)).2 = .done [[1], [2]] ∧
    (apply single (world 7 [1, 2]) (mark first)).2 = .skipped := by
  refine ⟨Or.inl (by decide +kernel), Or.inr ⟨2, by decide +kernel, by decide +kernel⟩, ?_, by decide +kernel,
    by decide +kernel⟩
  exact ⟨(mark first).outputs.head (by decide +kernel), List.head_mem _, by decide +kernel, by decide +kernel,
    7, by decide +kernel, by decide +kernel⟩

/-- Multiplex: output 20 from all inputs. -/
def multi : Rule := ⟨true, true, true⟩

def worldM (env : Nat) (inputs : List Art) : World Nat :=
  { world env inputs with script := fun l => .gives [20 + l.length] (env :: l) }

def firstM : Node Nat := (apply multi (worldM 7 [1, 2]) fresh).1

theorem firstM_uniform : Uniform firstM :=
  (C28_multiplex_outputs multi rfl (worldM 7 [1, 2]) fresh uniform_fresh (separate_fresh _) (by decide)
    (Or.inl rfl) [[1, 2]] (by decide +kernel)).1

example : Uniform (mark firstM) ∧ Separate (worldM 7 [2, 3, 4]) (mark firstM) ∧
    (apply multi (worldM 7 [2, 3, 4]) (mark firstM)).2 = .done [[2, 3, 4]] ∧
    summary (apply multi (worldM 7 [2, 3, 4]) (mark firstM)).1 = [(23, [2, 3, 4], [7, 2, 3, 4])] ∧
    (apply multi (worldM 8 [1, 2]) (mark firstM)).2 = .done [[1, 2]] ∧
    (apply multi (worldM 7 [1, 2]) (mark firstM)).2 = .skipped :=
  ⟨uniform_mark firstM_uniform, by decide +kernel, by decide +kernel, by decide +kernel, by decide +kernel,
    by decide +kernel⟩

/-! ## Findings -/

/-- **C28 finding.** The check of what a prepare script read is forgotten as soon as it has been made. If the
    application then fails for another input, and its cause is repaired, the rule is skipped although its commands
    come from outdated values. -/
theorem C28_failed_application_forgets_check :
    let w : World Nat := { world 8 [1, 2] with script := fun l => if l = [1] then .refuses else perInput 8 l }
    let n := apply single w (mark first)
    n.2 = .failed ∧ summary n.1 = [(11, [1], [7]), (12, [2], [7])] ∧
    (apply single (world 8 [1, 2]) n.1).2 = .skipped ∧
    summary (apply single (world 8 [1, 2]) n.1).1 = [(11, [1], [7]), (12, [2], [7])] := by decide +kernel

/-- **C28 finding.** If a prepare script fails when its rule is applied again, its output exists without commands.
    The next time, in a world where the script would work, the rule is skipped and nothing makes the output. -/
theorem C28_failed_script_leaves_output_without_commands :
    let w : World Nat := { world 8 [1] with script := fun _ => .fails [11] }
    let n0 := (apply single (world 7 [1]) fresh).1
    let n := apply single w (mark n0)
    n.2 = .failed ∧ summary n.1 = [(11, [1], [])] ∧
    (apply single (world 8 [1]) n.1).2 = .skipped ∧
    summary (apply single (world 8 [1]) n.1).1 = [(11, [1], [])] := by decide +kernel

/-- **C28 finding.** For each input only the first output that depends on it is considered, in whatever way it
    depends on it. Here output 12, made from input 2, has input 1 as scanned dependency: the script is run for input 1
    instead of input 2, and the output of input 2 keeps its outdated commands. -/
theorem C28_scanned_input_hides_rerun :
    let t1 : Trafo Nat := ⟨1, [1], true, some 8, [8]⟩
    let t2 : Trafo Nat := ⟨2, [2], true, some 7, [7]⟩
    let n : Node Nat := ⟨[1, 2], false, [], false, 5, false, [⟨12, [2], [1], t2⟩, ⟨11, [1], [], t1⟩], 3⟩
    (apply single (world 8 [1, 2]) n).2 = .done [[1]] ∧
    summary (apply single (world 8 [1, 2]) n).1 = [(12, [2], [7]), (11, [1], [8])] := by decide +kernel

/-- **C28 finding.** A rule without inputs ignores that its explicit dependencies have changed. -/
theorem C28_explicit_dependency_ignored_without_inputs :
    let w : World Nat := ⟨7, [], [5], fun _ => 1, 5, fun _ => .gives [30] [7], false, false, fun _ => [],
      fun a b => a != b⟩
    let r : Rule := ⟨true, true, false⟩
    let n := (apply r w fresh).1
    summary n = [(30, [], [7])] ∧
    (apply r { w with explicit := [6], time := fun _ => 9 } (mark n)).2 = .skipped := by decide +kernel

/-- **C28 finding.** A rule without inputs never removes an output that it no longer makes. -/
theorem C28_stale_output_without_inputs :
    let w : World Nat := ⟨7, [], [], fun _ => 1, 5, fun _ => .gives [30] [7], false, false, fun _ => [],
      fun a b => a != b⟩
    let w' : World Nat := { w with env := 8, script := fun _ => .gives [31] [8] }
    let r : Rule := ⟨true, true, false⟩
    let n := (apply r w fresh).1
    (apply r w' (mark n)).2 = .done [[]] ∧
    summary (apply r w' (mark n)).1 = [(30, [], [7]), (31, [], [8])] := by decide +kernel

/-- **C28 finding.** A multiplex rule all of whose inputs were replaced keeps the outputs made from the old ones. -/
theorem C28_stale_output_after_replacing_inputs :
    (apply multi (worldM 7 [3]) (mark firstM)).2 = .done [[3]] ∧
    summary (apply multi (worldM 7 [3]) (mark firstM)).1 = [(22, [1, 2], [7, 1, 2]), (21, [3], [7, 3])] := by
  decide +kernel

/-- **C28 finding.** An input that is removed while it is an explicit dependency of the rule makes an assertion
    fail. -/
theorem C28_removed_explicit_dependency_asserts :
    let w : World Nat := { world 7 [1, 2] with explicit := [2] }
    let n := (apply single w fresh).1
    (apply single w fresh).2 = .done [[1], [2]] ∧
    (apply single { world 7 [1] with explicit := [2] } n).2 = .assertion := by decide +kernel

/-- **C28 finding.** The time of the application is taken at its end: an input that changes in between is not
    noticed. Here the script reads input 1, which changes at time 4, before the end at time 5. -/
theorem C28_change_during_application_missed :
    let w : World Nat := { world 7 [1] with usesIo := true }
    let n := (apply single w fresh).1
    (apply single { w with time := fun _ => 4, script := perInput 8 } n).2 = .skipped ∧
    (apply single { w with time := fun _ => 6, script := perInput 8 } n).2 = .done [[1]] := by decide +kernel

/-- **C28 finding.** An output that was created before an error, from an input that was new, stays when that input is
    gone the next time. -/
theorem C28_stale_output_after_failure :
    let w : World Nat := { world 7 [1, 2] with script := fun l => if l = [2] then .refuses else perInput 7 l }
    let n := apply single w fresh
    n.2 = .failed ∧ (apply single (world 7 [2]) n.1).2 = .done [[2]] ∧
    summary (apply single (world 7 [2]) n.1).1 = [(11, [1], [7]), (12, [2], [7])] := by decide +kernel

/-- C28: if an input of the last application is removed from the project, then the rule is not skipped, even if an
    artifact is created anew that has the same name. -/
theorem C28_lost_input (r : Rule) (w : World Env) (n : Node Env) (a : Art) (ha : a ∈ n.oldInputs) :
    (apply r w (lose a n)).2 ≠ .skipped := by
  have hd : (decision r w (lose a n)).upToDate = false := by
    unfold decision
    simp [lose, ha, unchanged]
  unfold apply
  simp only [hd, Bool.false_eq_true, if_false]
  split
  · simp
  · unfold finish
    split
    · simp only []
      split <;> simp
    · simp

/-- C28: if an explicit dependency of the last application is removed from the project, then the rule is applied to all
    inputs. -/
theorem C28_lost_dependency (w : World Env) (n : Node Env) (a : Art) (ha : a ∈ n.oldExplicit) (b : Art) :
    Pending w (lose a n) b := by
  refine .inr (.inl (.inr (.inl ?_)))
  unfold lose
  simp [ha]

example : (apply single (world 7 [1, 2]) (lose 2 first)).2 = .done [[2]] := by decide +kernel

end Verif.Reapply
