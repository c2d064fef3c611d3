/-!
# Scheduling of products while a project is resolved (C52)

Model of src/lib/corelib/loader/productsresolver.cpp 166-187, 224-557, of the parts of
src/lib/corelib/loader/dependenciesresolver.cpp that decide whether a product has to wait (217-296, 311-388, 622-664,
906-926, 1156-1181), of src/lib/corelib/loader/productresolver.cpp 196-224, 231-293, and of
src/lib/corelib/loader/loaderutils.cpp 95-113, 191-201, 286-314, 822-838.

A product is given by its dependencies in the order in which they are handled, with those that come from modules and
`Export` items in their places; which product a name means does not change. A thread handles one dependency at a time,
interleaved with other threads and with the scheduler. The scheduler's loops are cut into single steps that can happen
whenever the code could make them. Shadow products are products like others. Canceling is in `Verif.Sched.Locks`.
-/
namespace Verif.Sched

/-- products, `ProductContext *` -/
abbrev P := Nat
/-- loader states, `LoaderState *` -/
abbrev L := Nat
abbrev Tag := Nat

/-- A dependency: on a product, or on all products of certain types. Whether the former is required matters if the
    product turns out to be disabled. -/
inductive Item
  | single (q : P) (required : Bool)
  | bulk (types : List Tag)
deriving DecidableEq, Repr

structure Project where
  /-- in the order in which they are queued -/
  products : List P
  items : P → List Item
  types : P → List Tag
  name : P → Nat
  /-- `condition` -/
  enabled : P → Bool
  /-- has it errors already? -/
  broken : P → Bool
  states : List L
  maxJobs : Nat

/-- What a thread does: resolving dependencies, the rest, nothing any more. -/
inductive Phase
  | resolving
  | stage2
  | done
deriving DecidableEq, Repr

/-- `ThreadInfo`, productsresolver.cpp 68-75, with the `Deferral` of the resolver in it. -/
structure Thread where
  p : P
  l : L
  allowed : Bool
  phase : Phase
deriving DecidableEq, Repr

/-- The members of `ProductsResolver` (productsresolver.cpp 121-140), and what threads share. -/
structure State where
  /-- `m_productsToHandle` -/
  toHandle : List P
  /-- `m_productsToSchedule` -/
  queue : List (P × Option L × Option Nat)
  /-- `m_waitingForSingleDependency`: what is waited for, and what waits -/
  waitSingle : List (P × P × L)
  waitBulk : List (P × L)
  /-- `m_waitingForLoaderState` -/
  waitState : List (L × P × Bool)
  running : List Thread
  /-- `m_availableLoaderStates` -/
  avail : List L
  maxJobs : Nat
  /-- `m_finishedProducts` -/
  finished : List P
  /-- the dependencies still to be handled -/
  todo : P → List Item
  /-- `delayedError` -/
  failed : P → Bool
  /-- `m_disabledItems` -/
  disabled : List P
  /-- `m_productsByType` -/
  typed : List P
  /-- dependencies that were established -/
  deps : P → List P
  /-- errors about cyclic dependencies, from the dependency resolver and from missed dependencies -/
  cycles : List (P × P)
  missed : List (P × P)
  /-- has a `QBS_CHECK` failed? -/
  asserted : Bool

/-- `initialize`, productsresolver.cpp 160-222. -/
def initial (pr : Project) : State where
  toHandle := pr.products
  queue := pr.products.map (fun p => (p, none, none))
  waitSingle := []
  waitBulk := []
  waitState := []
  running := []
  avail := pr.states
  maxJobs := pr.maxJobs
  finished := []
  todo := pr.items
  failed := pr.broken
  disabled := pr.products.filter pr.broken
  typed := []
  deps _ := []
  cycles := []
  missed := []
  asserted := false

def upd {α : Type} (f : P → α) (p : P) (v : α) : P → α := fun q => if q = p then v else f q

/-- The thread for a product goes on with a phase and a `Deferral`. -/
def setThread (s : State) (p : P) (allowed : Bool) (phase : Phase) : State :=
  { s with running := s.running.map (fun u => if u.p = p then { u with allowed := allowed, phase := phase } else u) }

/-- `ProductContext::handleError`, loaderutils.cpp 95-113, and going on, dependenciesresolver.cpp 356-384. -/
def fail (s : State) (t : Thread) (rest : List Item) : State :=
  { s with todo := upd s.todo t.p rest, failed := upd s.failed t.p true, disabled := t.p :: s.disabled }

/-- Stopping at a dependency: what `resolveProduct` does then, productresolver.cpp 208-209, depends on
    `dependenciesResolvingPending`, loaderutils.cpp 828-832. -/
def defer (s : State) (t : Thread) : State :=
  setThread s t.p t.allowed (if s.failed t.p || s.finished.contains t.p then .stage2 else .done)

/-- The products of the given types, `multiplexDependency`, dependenciesresolver.cpp 910-926. -/
def matching (pr : Project) (s : State) (p : P) (types : List Tag) : List P :=
  s.typed.filter (fun q => pr.name q != pr.name p && (pr.types q).any types.contains)

/-- The next dependency of a product, `DependenciesResolver::resolve`, dependenciesresolver.cpp 230-295;
    `handleResolvedDependencies`, 311-388; `checkProductDependency`, 622-664. Without any left, the rest of
    `ProductResolverStage1::start`, productresolver.cpp 240-293. -/
def work (pr : Project) (s : State) (t : Thread) : State :=
  match s.todo t.p with
  | [] =>
    if s.failed t.p || !pr.enabled t.p then
      setThread { s with disabled := t.p :: s.disabled } t.p t.allowed .stage2
    else setThread { s with typed := t.p :: s.typed } t.p t.allowed .stage2
  | .single q required :: rest =>
    if q = t.p then fail s t rest
    else if s.toHandle.contains q then
      if t.allowed then defer s t
      else fail { s with cycles := (t.p, q) :: s.cycles } t rest
    else if s.disabled.contains q then
      if required then fail s t rest else { s with todo := upd s.todo t.p rest }
    else
      setThread { s with todo := upd s.todo t.p rest, deps := upd s.deps t.p (q :: s.deps t.p) }
        t.p true .resolving
  | .bulk types :: rest =>
    if t.allowed then defer s t
    else
      setThread { s with todo := upd s.todo t.p ((matching pr s t.p types).map (fun q => .single q true) ++ rest) }
        t.p true .resolving

/-- `startJob`, productsresolver.cpp 350-402; `ok` says whether the thread can be created. -/
def start (s : State) (ok : Bool) (p : P) (l : L) (allowed : Bool) : State :=
  if ok then
    { s with running := s.running ++ [⟨p, l, allowed, if s.failed p then .stage2 else .resolving⟩] }
  else
    { s with
      queue := s.queue ++ [(p, some l, if allowed then none else some s.toHandle.length)]
      avail := s.avail ++ [l]
      maxJobs := if 2 ≤ s.maxJobs then s.maxJobs / 2 else s.maxJobs }

/-- May the product be deferred (again), productsresolver.cpp 270-274? -/
def mayDefer (s : State) : Option Nat → Bool
  | none => true
  | some c => decide (s.toHandle.length < c)

/-- One turn of the loop in `scheduleNext`, productsresolver.cpp 257-280, with `tryToReserveLoaderState`, 317-336. -/
def schedule (s : State) (ok : Bool) (e : P × Option L × Option Nat) (rest : List (P × Option L × Option Nat)) :
    State :=
  let allowed := mayDefer s e.2.2
  let s := { s with queue := rest }
  match s.avail.getLast? with
  | none => { s with asserted := true }
  | some last =>
    match e.2.1 with
    | none => start { s with avail := s.avail.dropLast } ok e.1 last allowed
    | some l =>
      if s.avail.contains l then start { s with avail := s.avail.erase l } ok e.1 l allowed
      else { s with waitState := s.waitState ++ [(l, e.1, allowed)] }

/-- Part b) of `scheduleNext`, productsresolver.cpp 300-307. -/
def scheduleBulk (s : State) : State :=
  { s with queue := s.waitBulk.map (fun e => (e.1, some e.2, some s.toHandle.length)), waitBulk := [] }

/-- Part c) of `scheduleNext`, productsresolver.cpp 309-315, for one order of the entries of the hash table. They are
    not removed from it. -/
def scheduleSingle (s : State) (order : List (P × P × L)) : State :=
  { s with queue := order.map (fun e => (e.2.1, some e.2.2, some s.toHandle.length)) }

/-- `unblockProductWaitingForLoaderState` and what follows, productsresolver.cpp 338-348, 441-449, 487-488. -/
def release (s : State) (ok : Bool) (l : L) : State :=
  match s.waitState.find? (fun e => e.1 == l) with
  | some e => start { s with waitState := s.waitState.erase e } ok e.2.1 l e.2.2
  | none => { s with avail := s.avail ++ [l] }

/-- Has the product a `Depends` item with `productTypes`? -/
def hasBulk (pr : Project) (p : P) : Bool := (pr.items p).any (fun i => match i with | .bulk _ => true | _ => false)

/-- The types that a product depends on. -/
def bulkTypes (pr : Project) (p : P) : List Tag :=
  (pr.items p).flatMap (fun i => match i with | .bulk ts => ts | _ => [])

/-- `checkForMissedBulkDependencies`, productsresolver.cpp 559-591: finished products that should have depended on this
    one. It is called in case of an error too; then there is nothing to be done for lack of an enabled product. -/
def missedBy (pr : Project) (s : State) (p : P) : List P :=
  if s.disabled.contains p || hasBulk pr p then []
  else s.finished.filter (fun a => !s.disabled.contains a && pr.name a != pr.name p &&
    (pr.types p).any (bulkTypes pr a).contains)

/-- The product is finished, productsresolver.cpp 472-483, with `unblockProductsWaitingForDependency`, 517-530. If it is
    scheduled again nevertheless, its dependencies are resolved anew, or the rest of them if they have not been. -/
def finish (pr : Project) (s : State) (p : P) : State :=
  { s with
    toHandle := s.toHandle.erase p
    finished := s.finished ++ [p]
    missed := (missedBy pr s p).map (fun a => (p, a)) ++ s.missed
    queue := s.queue ++ (s.waitSingle.filter (fun e => e.1 == p)).map (fun e => (e.2.1, some e.2.2, none))
    waitSingle := s.waitSingle.filter (fun e => !(e.1 == p))
    failed := upd s.failed p false
    todo := upd s.todo p (if s.todo p = [] then pr.items p else s.todo p) }

/-- The product's next dependency is pending, productsresolver.cpp 451-470 and `pendingDependency`,
    dependenciesresolver.cpp 1156-1181. -/
def wait (s : State) (p : P) (l : L) : List Item → State
  | .single q _ :: _ =>
    if s.toHandle.contains q then { s with waitSingle := s.waitSingle ++ [(q, p, l)] }
    else { s with queue := s.queue ++ [(p, some l, none)] }
  | .bulk _ :: _ => { s with waitBulk := s.waitBulk ++ [(p, l)] }
  | [] => s

/-- One turn of the loop in `handleFinishedThreads`, productsresolver.cpp 419-485. -/
def handle (pr : Project) (s : State) (ok : Bool) (t : Thread) : State :=
  let s := release { s with running := s.running.erase t } ok t.l
  if s.todo t.p = [] || s.failed t.p || s.finished.contains t.p then finish pr s t.p
  else wait s t.p t.l (s.todo t.p)

/-- What can happen next: in a thread, or in the scheduler (`runScheduler`, productsresolver.cpp 224-253). The first
    argument says whether a thread could be created if that had to be done. -/
inductive Step (pr : Project) : Bool → State → State → Prop
  | work {s : State} (t : Thread) : t ∈ s.running → t.phase = .resolving → Step pr true s (work pr s t)
  | stage2 {s : State} (t : Thread) : t ∈ s.running → t.phase = .stage2 →
      Step pr true s (setThread s t.p t.allowed .done)
  | handle {s : State} (t : Thread) (ok : Bool) : t ∈ s.running → t.phase = .done → Step pr ok s (handle pr s ok t)
  | schedule {s : State} (ok : Bool) (e : P × Option L × Option Nat) (rest : List (P × Option L × Option Nat)) :
      s.running.length < s.maxJobs → s.queue = e :: rest → Step pr ok s (schedule s ok e rest)
  | bulk {s : State} : s.running = [] → s.queue = [] → s.waitBulk ≠ [] → Step pr true s (scheduleBulk s)
  | single {s : State} (order : List (P × P × L)) : s.running = [] → s.queue = [] → s.waitBulk = [] →
      s.waitSingle ≠ [] → order.Perm s.waitSingle → Step pr true s (scheduleSingle s order)

/-- The states that can be reached. -/
inductive Reachable (pr : Project) : State → Prop
  | init : Reachable pr (initial pr)
  | step {ok : Bool} {s s' : State} : Reachable pr s → Step pr ok s s' → Reachable pr s'

/-- `runScheduler` leaves its loop, productsresolver.cpp 233-234, 296-298. -/
def Ended (s : State) : Prop := s.running = [] ∧ s.queue = [] ∧ s.waitBulk = [] ∧ s.waitSingle = []

/-- The checks after the loop, productsresolver.cpp 248-252. -/
def ChecksOk (s : State) : Prop :=
  s.queue = [] ∧ s.toHandle = [] ∧ s.running = [] ∧ s.waitSingle = [] ∧ s.waitBulk = []

end Verif.Sched
