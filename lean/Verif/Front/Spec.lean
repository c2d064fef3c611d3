import Verif.Front.Model
/-!
# What can happen, as seen from outside

Histories of events, and the jobs that run, told from what the frontend did and which jobs have
reported that they have finished.
-/
namespace Verif.Front

/-- The job that an effect starts. -/
def Effect.starts : Effect → Option Job
  | .resolve i => some (.resolve i)
  | .build i _ _ => some (.work i)
  | .clean i _ => some (.work i)
  | .install _ => some .install
  | _ => none

def Started (out : List Effect) (j : Job) : Prop := ∃ e ∈ out, e.starts = some j

/-- The job has been started and has not finished. -/
def Running (es : List Ev) (out : List Effect) (j : Job) : Prop :=
  Started out j ∧ ∀ ok, Ev.finished j ok ∉ es

/-- The histories: only jobs that run can finish, and nothing happens after the end. -/
inductive Hist (u : Setup) : List Ev → State → Prop
  | start : Hist u [] (start u)
  | step {es s} (e : Ev) : Hist u es s → s.exit = none →
      (∀ j ok, e = .finished j ok → Running es s.out j) → Hist u (es ++ [e]) (step u s e)

/-- A job has failed. -/
def Failed (es : List Ev) : Prop := ∃ j, Ev.finished j false ∈ es

/-- Commands whose exit code is that of another program or computation. -/
def Cmd.ownCode : Cmd → Bool
  | .run | .shell | .status => true
  | _ => false

/-- Commands that build or clean the projects. -/
def Works (u : Setup) : Prop :=
  u.cmd = .build ∨ u.cmd = .clean ∨ u.cmd = .generate ∨
  ((u.cmd = .install ∨ u.cmd = .run) ∧ u.buildFirst = true)

/-- Commands that install. -/
def Cmd.installs (c : Cmd) : Prop := c = .install ∨ c = .run

/-- All names on the command line are names of products. -/
def NamesOk (u : Setup) : Prop := ∀ n ∈ u.names, ∃ c ∈ u.configs, n ∈ c.products

/-- Nothing that the frontend checks is wrong. -/
structure Sound (u : Setup) : Prop where
  dirs : ∀ c ∈ u.configs, c.dirOk = true
  names : NamesOk u
  one : u.cmd.single = true → u.configs.length = 1
  product : u.cmd = .run ∨ u.cmd = .shell → u.names.length ≤ 1
  generator : u.cmd = .generate → u.generatorOk = true ∧ u.generateOk = true
  dump : u.cmd = .dumpNodesTree → u.dumpOk = true

/-- The products of a configuration that the command line selects. -/
def Selects (u : Setup) (c : Conf) : Option (List String) → Prop
  | none => u.names = []
  | some ps => u.names ≠ [] ∧ ∀ p, p ∈ ps ↔ p ∈ c.products ∧ p ∈ u.names

/-- The right number of jobs for a configuration. -/
def rightJobs (u : Setup) (c : Conf) : Nat := if u.jobs > 0 then u.jobs else u.prefJobs c.profile

end Verif.Front
