/-
Model of the build scheduler: /repo/src/lib/corelib/buildgraph/executor.cpp (class Executor).

What is abstracted (all of it only *adds* behaviours, so what is proved holds for the code):
* The priority queue `m_leaves` is a bag: any leaf may be popped next
  (executor.h:113, ComparePriority executor.cpp:78-85).
* The decision of `potentiallyRunTransformer` whether commands must run is an arbitrary Boolean
  (the decision itself is modelled in Verif/UpToDate).
* `RuleNode::apply` is an arbitrary rewrite of the graph meeting the contract in
  Verif/Exec/Spec.lean (`SafeEffect`), which lists what rulenode.cpp and rulesapplicator.cpp do
  to nodes and edges.
* Exceptions may be thrown at every point where the code can throw.
* Sets of nodes are lists; nodes, transformers, jobs, pools and products are numbers.
-/

namespace Verif.Exec

abbrev Node := Nat
abbrev Tr := Nat
abbrev Job := Nat
abbrev Pool := Nat
abbrev Product := Nat

/-- `BuildGraphNode::BuildState`, buildgraphnode.h:60-66. -/
inductive BState where
  | untouched | buildable | building | built
deriving DecidableEq, Repr

/-- `Executor::ExecutorState`, executor.h:106. -/
inductive EState where
  | idle | running | canceling
deriving DecidableEq, Repr

/-- Node types: source artifact, generated artifact, rule node
    (buildgraphnode.h `type()`, artifact.h `ArtifactType`; `Unknown` never survives creation). -/
inductive Kind where
  | source | gen | rule
deriving DecidableEq, Repr

/-- The build graph. `tr` is `Artifact::transformer` (meaningful for generated artifacts),
    `product` is `BuildGraphNode::product`. -/
structure Graph where
  nodes : List Node
  kind : Node → Kind
  tr : Node → Tr
  product : Node → Product
  children : Node → List Node

/-- `BuildGraphNode::parents`: the inverse of `children` (connect/disconnect keep both in step,
    buildgraph.cpp:552-553, 604-605; proved for the operations in Verif/BuildGraph). -/
def Graph.parents (g : Graph) (n : Node) : List Node :=
  g.nodes.filter fun p => decide (n ∈ g.children p)

/-- `Transformer::outputs`: the artifacts whose transformer is `t` (rulesapplicator.cpp:501-502). -/
def Graph.outputs (g : Graph) (t : Tr) : List Node :=
  g.nodes.filter fun n => decide (g.kind n = .gen ∧ g.tr n = t)

/-- Everything the outputs of a transformer depend on. -/
def Graph.deps (g : Graph) (t : Tr) : List Node :=
  (g.outputs t).flatMap g.children

/-- Why a node became built. -/
inductive Why where
  | source                -- source artifact, buildArtifact:552-561
  | ignored               -- product not part of this build, checkNodeProduct:975-988
  | skipped (t : Tr)      -- transformer not run, potentiallyRunTransformer:828-850
  | ran (t : Tr)          -- commands of the transformer succeeded, finishJob:609-637
  | applied               -- rule node applied, executeRuleNode:595
deriving DecidableEq, Repr

/-- What an outside observer sees. -/
inductive Ev where
  | start (t : Tr) (deps : List Node)   -- the commands of `t` are launched (runTransformer:876);
                                        -- `deps` is everything its outputs depend on then
  | succeeded (t : Tr)                  -- the job of `t` reported success
  | failed (t : Tr)                     -- the job of `t` reported an error
  | apply (r : Node) (deps : List Node) -- the rule of rule node `r` is applied
  | completed (n : Node) (why : Why)    -- node `n` is now built
  | error                               -- an exception was caught (handleError:795-804)
  | cancelJobs (ts : List Tr)           -- cancelJobs:760-769 was run; the jobs of these transformers
                                        -- got `cancel()`
  | finished (explicitly : Bool)        -- signal `finished()` (finish:990-1020)
deriving DecidableEq, Repr

/-- Where control is. `delayed` of scheduleJobs is a state component. -/
inductive Phase where
  | scheduling     -- inside the while loop of scheduleJobs:389
  | waiting        -- in the event loop, build in progress
  | finishPending  -- doBuild:330 queued `finish` for the next event loop iteration
  | done           -- `finished()` was emitted
deriving DecidableEq, Repr

/-- Build options and per-product data which do not change during a build. -/
structure Cfg where
  maxJobs : Nat
  keepGoing : Bool
  executeRulesOnly : Bool
  /-- `m_partialBuild`, executor.cpp:149 -/
  partialBuild : Bool
  /-- membership in `m_buildableProducts` -/
  buildable : Product → Bool
  /-- `m_jobLimitsPerProduct` (`none`: product has no entry), `getLimit` -/
  limit : Product → Option (Pool → Int)
  /-- `Transformer::jobPools()` -/
  pools : Tr → List Pool
  /-- `Transformer::product()` -/
  trProduct : Tr → Product

structure St where
  g : Graph
  bs : Node → BState
  /-- `m_leaves` -/
  leaves : List Node
  /-- local variable `delayedLeaves` of scheduleJobs:388 -/
  delayed : List Node
  /-- `m_availableJobs` -/
  avail : List Job
  /-- `m_processingJobs` -/
  proc : List (Job × Tr)
  /-- `runningJob->transformer() != nullptr`: the job has not reported its end yet
      (executorjob.cpp:94-111, 158-172). -/
  live : Job → Bool
  /-- `m_jobCountPerPool` -/
  count : Pool → Int
  /-- `m_state` -/
  st : EState
  /-- `m_explicitlyCanceled` -/
  explicitly : Bool
  /-- `m_progressObserver->canceled()`: the user has asked for cancellation -/
  cancelRequested : Bool
  /-- false during the first scheduleJobs call, made by doBuild:328 -/
  fromFinishJob : Bool
  phase : Phase
  /-- ghost: events so far, newest first -/
  log : List Ev

/-- Function update. -/
def upd {β : Type} (f : Nat → β) (a : Nat) (b : β) : Nat → β := fun x => if x = a then b else f x

/-- allChildrenBuilt, executor.cpp:662-665. -/
def allBuilt (g : Graph) (bs : Node → BState) (n : Node) : Bool :=
  (g.children n).all fun c => decide (bs c = .built)

/-- Executor::finishNode, executor.cpp:667-686. -/
def finishNode (why : Why) (s : St) (n : Node) : St :=
  let bs' := upd s.bs n .built
  { s with
    bs := bs'
    leaves := s.leaves ++
      (s.g.parents n).filter (fun p => decide (bs' p = .buildable) && allBuilt s.g bs' p)
    log := .completed n why :: s.log }

/-- Executor::finishTransformer, executor.cpp:879-894, restricted to the first `k` outputs (the
    loop can be left early by an exception from possiblyInstallArtifact:883). The progress
    counter is modelled in Verif/Progress. -/
def finishTransformer (why : Why) (s : St) (t : Tr) (k : Nat) : St :=
  ((s.g.outputs t).take k).foldl (finishNode why) s

/-- The state part of `updateLeaves`: states, seen nodes and leaves. -/
structure Acc where
  bs : Node → BState
  seen : List Node
  leaves : List Node

/-- executor.cpp:361-362: nodes new to the build become `Buildable`. -/
def touch (bs : Node → BState) (n : Node) : Node → BState :=
  if bs n = .untouched then upd bs n .buildable else bs

/-- Executor::updateLeaves(BuildGraphNode *, NodeSet &), executor.cpp:354-382. The recursion depth
    is bounded by the number of nodes (first argument); `updateLeaves_closed` shows that the bound
    used below is never hit. The timestamps set at 361-368 are not part of this model. -/
def visit (g : Graph) : Nat → Acc → Node → Acc
  | 0, a, _ => a
  | fuel + 1, a, n =>
    if n ∈ a.seen then a
    else
      let a1 : Acc :=
        { bs := touch a.bs n, seen := n :: a.seen, leaves := a.leaves }
      let a2 := (g.children n).foldl
        (fun b c => if b.bs c = .built then b else visit g fuel b c) a1
      if allBuilt g a2.bs n then { a2 with leaves := n :: a2.leaves } else a2

/-- Executor::updateLeaves(const NodeSet &), executor.cpp:347-352. -/
def updateLeaves (s : St) (ns : List Node) : St :=
  let a := ns.foldl (visit s.g (s.g.nodes.length + 1)) ⟨s.bs, [], s.leaves⟩
  { s with bs := a.bs, leaves := a.leaves }

/-- Executor::updateJobCounts, executor.cpp:754-758. -/
def updateJobCounts (cfg : Cfg) (count : Pool → Int) (t : Tr) (diff : Int) : Pool → Int :=
  (cfg.pools t).foldl (fun c p => upd c p (c p + diff)) count

/-- The lambda jobLimitIsExceeded, executor.cpp:438-444. -/
def limitExceeded (cfg : Cfg) (currentJobCount : Int) (pool : Pool) (t : Tr) : Bool :=
  match cfg.limit (cfg.trProduct t) with
  | none => false
  | some f => decide (f pool > 0) && decide (currentJobCount ≥ f pool)

/-- Executor::schedulingBlockedByJobLimit, executor.cpp:425-465. -/
def blocked (cfg : Cfg) (s : St) (n : Node) : Bool :=
  if s.g.kind n = .gen then
    (cfg.pools (s.g.tr n)).any fun pool =>
      if s.count pool = 0 then false
      else
        limitExceeded cfg (s.count pool) pool (s.g.tr n)
        || s.proc.any fun jt =>
            s.live jt.1                                            -- 456 (and 453: reset() clears
                                                                   -- the pools of a finished job)
            && decide (pool ∈ cfg.pools jt.2)                      -- 453
            && !(decide (cfg.trProduct jt.2 = cfg.trProduct (s.g.tr n)))  -- 458
            && limitExceeded cfg (s.count pool) pool jt.2          -- 460
  else false

/-- Executor::cancelJobs, executor.cpp:760-769. -/
def cancelJobs (s : St) : St :=
  if s.st = .canceling then s
  else { s with st := .canceling, log := .cancelJobs (s.proc.map (·.2)) :: s.log }

/-- Executor::finish, executor.cpp:990-1020 (error collection is in Verif/Exec/Props). -/
def finish (s : St) : St :=
  { s with st := .idle, phase := .done, log := .finished s.explicitly :: s.log }

/-- Executor::handleError, executor.cpp:798-803: finish now, or when the last job has ended. -/
def abort (s : St) : St :=
  if s.proc = [] then finish s else { cancelJobs s with phase := .waiting }

/-- Executor::handleError, executor.cpp:795-804; reached from every throw below. -/
def handleError (s : St) : St := abort { s with log := .error :: s.log }

/-- Executor::runTransformer, executor.cpp:870-876; `none` is the failing QBS_CHECK of line 870. -/
def runTransformer (cfg : Cfg) (s : St) (t : Tr) : Option St :=
  match s.avail with
  | [] => none
  | j :: rest =>
    some { s with
      avail := rest
      bs := fun m => if m ∈ s.g.outputs t then .building else s.bs m
      proc := (j, t) :: s.proc
      live := upd s.live j true
      count := updateJobCounts cfg s.count t 1
      log := .start t (s.g.deps t) :: s.log }

/-- Executor::checkNodeProduct, executor.cpp:975-978. -/
def productOk (cfg : Cfg) (s : St) (n : Node) : Bool :=
  !cfg.partialBuild || cfg.buildable (s.g.product n)

/-- What `RuleNode::apply` did to the graph (rulenode.cpp:79-245). -/
structure Effect where
  g : Graph
  created : List Node
  invalidated : List Node

/-- The graph update itself; new artifacts are `Untouched` (buildgraphnode.cpp:53). -/
def applyEffect (s : St) (e : Effect) : St :=
  { s with g := e.g, bs := fun n => if n ∈ s.g.nodes then s.bs n else .untouched }

/-- Executor::executeRuleNode, executor.cpp:569-596, after the product check. -/
def executeRule (s : St) (r : Node) (e : Effect) : St :=
  let s1 := applyEffect { s with log := .apply r (s.g.children r) :: s.log } e
  finishNode .applied (updateLeaves (updateLeaves s1 e.created) e.invalidated) r

/-- Executor::finishJob, executor.cpp:603-608: bookkeeping for a finished job. -/
def endJob (cfg : Cfg) (s : St) (j : Job) (t : Tr) : St :=
  { s with
    proc := s.proc.erase (j, t)
    avail := s.avail ++ [j]
    count := updateJobCounts cfg s.count t (-1) }

/-- Executor::finishJob, executor.cpp:639-659, after the bookkeeping. -/
def afterJob (cfg : Cfg) (ok : Bool) (s : St) : St :=
  let s1 := if !ok && !cfg.keepGoing then cancelJobs s else s
  let s2 := if s1.st = .running ∧ s1.cancelRequested = true
            then cancelJobs { s1 with explicitly := true } else s1
  if s2.st = .canceling then
    if s2.proc = [] then finish s2 else s2
  else { s2 with phase := .scheduling, fromFinishJob := true, delayed := [] }

/-- One transition. `Contract s r e` says which graph rewrites applying a rule may do. -/
inductive Step (cfg : Cfg) (Contract : St → Node → Effect → Prop) : St → St → Prop
  /-- Loop body of scheduleJobs:389-419 for a leaf that is not `Buildable`. -/
  | popSkip (s : St) (l1 l2 : List Node) (n : Node) :
      s.phase = .scheduling → s.leaves = l1 ++ n :: l2 → s.avail ≠ [] →
      s.bs n ≠ .buildable →
      Step cfg Contract s { s with leaves := l1 ++ l2 }
  /-- The leaf is delayed, executor.cpp:402-405. -/
  | popDelay (s : St) (l1 l2 : List Node) (n : Node) :
      s.phase = .scheduling → s.leaves = l1 ++ n :: l2 → s.avail ≠ [] →
      s.bs n = .buildable → blocked cfg s n = true →
      Step cfg Contract s { s with leaves := l1 ++ l2, delayed := n :: s.delayed }
  /-- A node of a product outside this build: checkNodeProduct:975-988 (source artifacts are not
      checked, buildArtifact:548). -/
  | popIgnore (s : St) (l1 l2 : List Node) (n : Node) :
      s.phase = .scheduling → s.leaves = l1 ++ n :: l2 → s.avail ≠ [] →
      s.bs n = .buildable → blocked cfg s n = false →
      s.g.kind n ≠ .source → productOk cfg s n = false →
      Step cfg Contract s (finishNode .ignored { s with leaves := l1 ++ l2 } n)
  /-- A source artifact, buildArtifact:552-561. -/
  | popSource (s : St) (l1 l2 : List Node) (n : Node) :
      s.phase = .scheduling → s.leaves = l1 ++ n :: l2 → s.avail ≠ [] →
      s.bs n = .buildable → blocked cfg s n = false → s.g.kind n = .source →
      Step cfg Contract s (finishNode .source { s with leaves := l1 ++ l2 } n)
  /-- Commands need not run: potentiallyRunTransformer:830-850. -/
  | popSkipTransformer (s : St) (l1 l2 : List Node) (n : Node) :
      s.phase = .scheduling → s.leaves = l1 ++ n :: l2 → s.avail ≠ [] →
      s.bs n = .buildable → blocked cfg s n = false → s.g.kind n = .gen →
      productOk cfg s n = true →
      Step cfg Contract s (finishTransformer (.skipped (s.g.tr n)) { s with leaves := l1 ++ l2 }
        (s.g.tr n) (s.g.outputs (s.g.tr n)).length)
  /-- Commands must run: potentiallyRunTransformer:852, runTransformer. -/
  | popRun (s s' : St) (l1 l2 : List Node) (n : Node) :
      s.phase = .scheduling → s.leaves = l1 ++ n :: l2 → s.avail ≠ [] →
      s.bs n = .buildable → blocked cfg s n = false → s.g.kind n = .gen →
      productOk cfg s n = true → cfg.executeRulesOnly = false →
      runTransformer cfg { s with leaves := l1 ++ l2 } (s.g.tr n) = some s' →
      Step cfg Contract s s'
  /-- A rule node: executeRuleNode:569-596. -/
  | popRule (s : St) (l1 l2 : List Node) (n : Node) (e : Effect) :
      s.phase = .scheduling → s.leaves = l1 ++ n :: l2 → s.avail ≠ [] →
      s.bs n = .buildable → blocked cfg s n = false → s.g.kind n = .rule →
      productOk cfg s n = true → Contract { s with leaves := l1 ++ l2 } n e →
      Step cfg Contract s (executeRule { s with leaves := l1 ++ l2 } n e)
  /-- An exception while a source or generated artifact is handled (lost source file:143, output
      directory:864, installation:883 after `k` outputs), caught at build:151 or onJobFinished:933. -/
  | popThrow (s : St) (l1 l2 : List Node) (n : Node) (k : Nat) :
      s.phase = .scheduling → s.leaves = l1 ++ n :: l2 → s.avail ≠ [] →
      s.bs n = .buildable → blocked cfg s n = false →
      (k = 0 ∨ (s.g.kind n = .gen ∧ productOk cfg s n = true)) →
      Step cfg Contract s (handleError
        (finishTransformer (.skipped (s.g.tr n)) { s with leaves := l1 ++ l2 } (s.g.tr n) k))
  /-- An exception while a rule is applied; the graph may already have been changed. -/
  | popRuleThrow (s : St) (l1 l2 : List Node) (n : Node) (e : Effect) :
      s.phase = .scheduling → s.leaves = l1 ++ n :: l2 → s.avail ≠ [] →
      s.bs n = .buildable → blocked cfg s n = false → s.g.kind n = .rule →
      productOk cfg s n = true → Contract { s with leaves := l1 ++ l2 } n e →
      Step cfg Contract s (handleError (applyEffect
        { s with leaves := l1 ++ l2, log := .apply n (s.g.children n) :: s.log } e))
  /-- scheduleJobs:420-422 and its callers doBuild:328-331 and finishJob:656-659. -/
  | endLoop (s : St) :
      s.phase = .scheduling → s.leaves = [] ∨ s.avail = [] →
      Step cfg Contract s
        (let s1 := { s with leaves := s.leaves ++ s.delayed, delayed := [] }
         if s1.leaves = [] ∧ s1.proc = [] then
           if s1.fromFinishJob then finish s1 else { s1 with phase := .finishPending }
         else { s1 with phase := .waiting })
  /-- `finish` called from the event loop (doBuild:330). -/
  | finishLater (s : St) : s.phase = .finishPending → Step cfg Contract s (finish s)
  /-- A job ends on its own; its `finished` signal is queued (executor.cpp:823-824,
      executorjob.cpp:158-163). -/
  | jobEnds (s : St) (j : Job) (t : Tr) :
      s.phase ≠ .done → (j, t) ∈ s.proc → s.live j = true →
      Step cfg Contract s { s with live := upd s.live j false }
  /-- onJobFinished:909-936 for a job that reported success. -/
  | jobOk (s : St) (j : Job) (t : Tr) :
      s.phase = .waiting → (j, t) ∈ s.proc → s.live j = false →
      Step cfg Contract s (afterJob cfg true
        (finishTransformer (.ran t) { endJob cfg s j t with log := .succeeded t :: s.log } t
          (s.g.outputs t).length))
  /-- onJobFinished:909-936 for a job that reported an error. -/
  | jobFail (s : St) (j : Job) (t : Tr) :
      s.phase = .waiting → (j, t) ∈ s.proc → s.live j = false →
      Step cfg Contract s (afterJob cfg false { endJob cfg s j t with log := .failed t :: s.log })
  /-- onJobFinished, success, but the output check (finishJob:616-631) or the installation
      (finishTransformer:883, after `k` outputs) throws. -/
  | jobOkThrow (s : St) (j : Job) (t : Tr) (k : Nat) :
      s.phase = .waiting → (j, t) ∈ s.proc → s.live j = false →
      Step cfg Contract s (handleError
        (finishTransformer (.ran t) { endJob cfg s j t with log := .succeeded t :: s.log } t k))
  /-- The user asks for cancellation (at any time, from any thread). -/
  | requestCancel (s : St) : s.cancelRequested = false → Step cfg Contract s { s with cancelRequested := true }
  /-- checkForCancellation:1022-1030, called by the timer in the event loop. -/
  | timer (s : St) :
      s.phase = .waiting ∨ s.phase = .finishPending → s.st = .running →
      s.cancelRequested = true → Step cfg Contract s (cancelJobs s)

/-- prepareReachableNodes_impl, executor.cpp:1150-1160 (selected-files bookkeeping left out).
    Recursion depth as for `visit`. -/
def prepare (g : Graph) : Nat → (Node → BState) → Node → (Node → BState)
  | 0, bs, _ => bs
  | fuel + 1, bs, n =>
    if bs n ≠ .untouched then bs
    else (g.children n).foldl (prepare g fuel) (upd bs n .buildable)

/-- The state in which doBuild:244-328 calls scheduleJobs for the first time: prepareAllNodes,
    setupRootNodes (`roots`), prepareReachableNodes, initLeaves, addExecutorJobs. -/
def initial (cfg : Cfg) (g : Graph) (roots : List Node) : St :=
  let bs := roots.foldl (prepare g (g.nodes.length + 1)) (fun _ => .untouched)
  updateLeaves
    { g, bs, leaves := [], delayed := [], avail := List.range cfg.maxJobs, proc := []
      live := fun _ => false, count := fun _ => 0, st := .running, explicitly := false
      cancelRequested := false, fromFinishJob := false, phase := .scheduling, log := [] }
    roots

/-- Reachable states of a build of the given graph. -/
inductive Reach (cfg : Cfg) (Contract : St → Node → Effect → Prop) (g : Graph)
    (roots : List Node) : St → Prop
  | init : Reach cfg Contract g roots (initial cfg g roots)
  | step (s s' : St) : Reach cfg Contract g roots s → Step cfg Contract s s' →
      Reach cfg Contract g roots s'

end Verif.Exec
