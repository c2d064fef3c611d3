/-
The requests and replies of a session (`qbs session`): src/app/qbs/session.cpp.

Not modelled: the JSON texts of messages, progress, log and command messages, the contents of
error messages (only their reason), `module-properties`, `log-level`, settings, the environment
that `get-run-environment` computes and the files that `get-generated-files-for-sources` finds
(only that there is a reply), the LSP server. What a project is, what editing it does and what a
job does to it are parameters: a project is a value of an arbitrary type, the functions that edit
it are arbitrary, and the result of a job is part of the event that ends it.
-/

namespace Verif.Api

abbrev Name := String

/-- What the session knows of a product (api/projectdata.h, ProductData): `fullDisplayName()`,
`isEnabled()`, the `builtByDefault` property and the names of its groups. Product and group data
that were found are valid. -/
structure Product where
  name : Name
  enabled : Bool
  byDefault : Bool
  groups : List Name
  deriving DecidableEq, Repr

/-- ProjectData: the products of a project, and its subprojects. A parent's subprojects are given
as a chain so that the type is a plain inductive one: `node own subs siblings`. `stop` is the
project without products, and the end of a chain. `tag` stands for everything else in the data. -/
inductive Tree where
  | stop
  | node (tag : Nat) (own : List Product) (subs : Tree) (siblings : Tree)
  deriving DecidableEq, Repr

/-- The inner loop of `getProductsByNameForProject`, session.cpp 579-587: whether the product has
one of the names that remain. The name is taken out. -/
def takeName (n : Name) : List Name → Option (List Name)
  | [] => none
  | m :: ms => if m = n then some ms else (takeName n ms).map (m :: ·)

/-- The loop over a project's own products, session.cpp 578-589. -/
def pickOwn : List Product → List Name → List Product × List Name
  | [], names => ([], names)
  | p :: ps, names =>
    match takeName p.name names with
    | none => pickOwn ps names
    | some [] => ([p], [])
    | some rest => ((p :: (pickOwn ps rest).1), (pickOwn ps rest).2)

/-- `getProductsByNameForProject`, session.cpp 572-595, on a chain of projects: the products found
and the names that remain. The loop over the subprojects (590-594) stops when no name remains; a
project without remaining names has no products to find (576-577). -/
def pick : Tree → List Name → List Product × List Name
  | .stop, names => ([], names)
  | .node _ own subs siblings, names =>
    if names = [] then ([], names) else
    let a := pickOwn own names
    if a.2 = [] then (a.1, []) else
    let b := pick subs a.2
    if b.2 = [] then (a.1 ++ b.1, []) else
    let c := pick siblings b.2
    (a.1 ++ b.1 ++ c.1, c.2)

/-- `Session::getProductsByName`, session.cpp 597-601. -/
def productsByName (data : Tree) (names : List Name) : List Product := (pick data names).1

/-- `Session::getProductByName`, session.cpp 603-607. -/
def productByName (data : Tree) (n : Name) : Option Product := (productsByName data [n]).head?

/-- The `products` property of a request: missing or not understood, the string "all", an array of
names. -/
inductive Selection where
  | absent
  | all
  | names (l : List Name)
  deriving DecidableEq, Repr

/-- `Session::ProductSelection`, session.cpp 171-177. -/
structure Selected where
  products : List Product
  withNonDefault : Bool
  deriving DecidableEq, Repr

/-- `Session::getProductSelection`, session.cpp 713-722. -/
def getSelection (data : Tree) : Selection → Selected
  | .names l => { products := productsByName data l, withNonDefault := false }
  | .all => { products := [], withNonDefault := true }
  | .absent => { products := [], withNonDefault := false }

/-- `enabledInternalProducts`, project.cpp 167-178. The internal products are those of the project
data. -/
def enabledProducts (withNonDefault : Bool) : Tree → List Product
  | .stop => []
  | .node _ own subs siblings =>
    own.filter (fun p => p.enabled && (withNonDefault || p.byDefault))
      ++ enabledProducts withNonDefault subs ++ enabledProducts withNonDefault siblings

/-- `ProjectPrivate::internalProducts`, project.cpp 157-165. -/
def internalProducts (l : List Product) : List Product := l.filter (·.enabled)

/-- The products of a build or install job: session.cpp 342-344, 409-411, project.cpp 845-864,
915-933. -/
def jobProducts (data : Tree) (sel : Selected) : List Product :=
  if sel.products = [] then enabledProducts sel.withNonDefault data
  else internalProducts sel.products

/-- The products of a clean job: session.cpp 387-389, project.cpp 882-897. -/
def cleanProducts (data : Tree) (sel : Selected) : List Product :=
  if sel.products = [] then enabledProducts true data else internalProducts sel.products

/-- `Session::ProjectDataMode`, session.cpp 137. -/
inductive Mode where
  | never | always | onlyIfChanged
  deriving DecidableEq, Repr

/-- The requests, session.cpp 230-261. `unknown` is every other `type`. -/
inductive Req where
  | resolve (mode : Mode)
  | build (sel : Selection) (mode : Mode)
  | clean (sel : Selection)
  | install (sel : Selection)
  | addFiles (product group : Name) (files : List Name)
  | removeFiles (product group : Name) (files : List Name)
  | renameFiles (product group : Name) (files : List (Name × Name))
  | addDependencies (product group : Name) (deps : List Name)
  | runEnvironment (product : Name)
  | generatedFiles
  | release
  | quit
  | cancel
  | unknown
  deriving DecidableEq, Repr

/-- The types of the replies. -/
inductive Kind where
  | resolved | built | cleaned | installDone | filesAdded | filesRemoved | filesRenamed
  | dependenciesAdded | runEnvironment | generatedFiles | released | protocolError
  deriving DecidableEq, Repr

/-- Why a reply has an error. -/
inductive Reason where
  | busy | noProject | noProduct | noGroup | operationFailed | unknownRequest
  deriving DecidableEq, Repr

/-- A reply: its type, its `error`, its `project-data` and its `failed-files` property (no property
if the list is empty). -/
structure Reply where
  kind : Kind
  error : Option Reason := none
  data : Option Tree := none
  failed : List Name := []
  deriving DecidableEq, Repr

inductive JobKind where
  | resolve | build | clean | install
  deriving DecidableEq, Repr

/-- What the outside world sees: replies, jobs that start on some products, and the end of the
session. -/
inductive Out where
  | reply (r : Reply)
  | start (k : JobKind) (products : List Product)
  | closed
  deriving DecidableEq, Repr

/-- A running job: `m_currentJob`, its `state() == StateCanceling`, the data mode that its finished
handler has captured. -/
structure Job where
  kind : JobKind
  mode : Mode
  canceling : Bool
  deriving DecidableEq, Repr

/-- The functions of a project that the session calls (project.h): its data, and what adding or
removing one file, adding dependencies, computing the run environment do: `none` is an error. -/
structure World (P : Type) where
  data : P → Tree
  add : P → Name → Name → Name → Option P
  remove : P → Name → Name → Name → Option P
  depend : P → Name → Name → List Name → Option P
  envOk : P → Name → Bool

/-- The state of a session, session.cpp 194-203: `m_project` (`none` is an invalid one),
`m_projectData`, `m_resolveRequest` (its data mode), `m_currentJob`. `quitting`: `quitSession` has
disconnected the packet reader. -/
structure State (P : Type) where
  project : Option P := none
  data : Tree := .stop
  stored : Option Mode := none
  job : Option Job := none
  quitting : Bool := false

/-- How a job ends. `ok p`: it was successful and `p` is the project it leaves. `failed p`: it was
not, or it was canceled; `p` is what is left of the project that was open before (a resolve job may
take its build data away, jobs.cpp 264-269, and none is left if none was open). -/
inductive Result (P : Type) where
  | ok (p : P)
  | failed (p : Option P)

inductive Event (P : Type) where
  | request (r : Req)
  | finished (r : Result P)

/-- `insertProjectDataIfNecessary`, session.cpp 761-767: whether the data are attached. -/
def attach (mode : Mode) (old new : Tree) : Option Tree :=
  match mode with
  | .always => some new
  | .onlyIfChanged => if new ≠ old then some new else none
  | .never => none

/-- `sendErrorReply`, session.cpp 816-827. -/
def errorReply (k : Kind) (e : Reason) : Out := .reply { kind := k, error := some e }

/-- The part of `setupProject` that starts the job, session.cpp 291-308. -/
def startResolve {P : Type} (s : State P) (mode : Mode) : State P × List Out :=
  ({ s with job := some { kind := .resolve, mode := mode, canceling := false } },
    [.start .resolve []])

/-- `Session::setupProject`, session.cpp 280-308. -/
def setupProject {P : Type} (s : State P) (mode : Mode) : State P × List Out :=
  match s.job with
  | some j =>
    if j.kind = .resolve ∧ j.canceling = true then ({ s with stored := some mode }, [])
    else (s, [errorReply .resolved .busy])
  | none => startResolve s mode

/-- `checkNormalRequestPrerequisites`, session.cpp 798-809: the error, if one is not met. -/
def prerequisites {P : Type} (s : State P) : Option Reason :=
  if s.job.isSome then some .busy else if s.project.isNone then some .noProject else none

/-- The common part of `buildProject`, `cleanProject` and `installProject`, session.cpp 334-422. -/
def startJob {P : Type} (s : State P) (reply : Kind) (k : JobKind) (mode : Mode)
    (products : List Product) : State P × List Out :=
  match prerequisites s with
  | some e => (s, [errorReply reply e])
  | none => ({ s with job := some { kind := k, mode := mode, canceling := false } },
      [.start k products])

/-- `prepareFileUpdate`, session.cpp 724-759: the last error that applies wins. -/
def prepare {P : Type} (s : State P) (product group : Name) : Option Reason :=
  if s.project.isNone then some .noProject
  else if s.job.isSome then some .busy
  else match productByName s.data product with
    | none => some .noProduct
    | some p => if group ∈ p.groups then none else some .noGroup

/-- One step of the loops of `addFiles` and `removeFiles`, session.cpp 435-442, 470-477, with the
function `f` that edits the project. Third component: the failed files. -/
def editLoop {P : Type} (f : P → Name → Option P) : P → List Name → P × List Name
  | p, [] => (p, [])
  | p, x :: xs =>
    match f p x with
    | none => ((editLoop f p xs).1, x :: (editLoop f p xs).2)
    | some p' => editLoop f p' xs

/-- The loop of `renameFiles`, session.cpp 500-517. -/
def renameLoop {P : Type} (rem add : P → Name → Option P) : P → List (Name × Name) → P × List Name
  | p, [] => (p, [])
  | p, x :: xs =>
    match rem p x.1 with
    | none => ((renameLoop rem add p xs).1, x.1 :: (renameLoop rem add p xs).2)
    | some p' =>
      match add p' x.2 with
      | none => ((renameLoop rem add p' xs).1, x.1 :: (renameLoop rem add p' xs).2)
      | some p'' => renameLoop rem add p'' xs

/-- The reply of the three edit requests, session.cpp 443-456, 478-486, 518-525. `count` is the
number of files in the request. The project data object is changed in place (448-449). -/
def editReply {P : Type} (w : World P) (s : State P) (k : Kind) (count : Nat)
    (r : P × List Name) : State P × List Out :=
  ({ s with project := some r.1, data := w.data r.1 },
    [.reply { kind := k
              error := if r.2 = [] then none else some .operationFailed
              data := if r.2.length ≠ count then some (w.data r.1) else none
              failed := r.2 }])

/-- `addFiles`, `removeFiles`: session.cpp 424-487. -/
def editFiles {P : Type} (w : World P) (s : State P) (k : Kind) (f : P → Name → Name → Name → Option P)
    (product group : Name) (files : List Name) : State P × List Out :=
  match prepare s product group, s.project with
  | some e, _ => (s, [.reply { kind := k, error := some e, failed := files }])
  | none, some p => editReply w s k files.length (editLoop (fun q x => f q product group x) p files)
  | none, none => (s, [])

/-- `renameFiles`, session.cpp 489-526. -/
def renameFiles {P : Type} (w : World P) (s : State P) (product group : Name)
    (files : List (Name × Name)) : State P × List Out :=
  match prepare s product group, s.project with
  | some e, _ => (s, [.reply { kind := .filesRenamed, error := some e, failed := files.map (·.1) }])
  | none, some p =>
    editReply w s .filesRenamed files.length
      (renameLoop (fun q x => w.remove q product group x) (fun q x => w.add q product group x) p files)
  | none, none => (s, [])

/-- What `addDependencies` leaves of the project. -/
def dependResult {P : Type} (w : World P) (p : P) (product group : Name) (deps : List Name) : P :=
  (w.depend p product group deps).getD p

/-- `addDependencies`, session.cpp 528-545: the error of the operation is not looked at. -/
def addDependencies {P : Type} (w : World P) (s : State P) (product group : Name)
    (deps : List Name) : State P × List Out :=
  match prepare s product group, s.project with
  | some e, _ => (s, [errorReply .dependenciesAdded e])
  | none, some p =>
    let p' := dependResult w p product group deps
    ({ s with project := some p', data := w.data p' },
      [.reply { kind := .dependenciesAdded, data := some (w.data p') }])
  | none, none => (s, [])

/-- The error of `getRunEnvironment` once its prerequisites are met, session.cpp 614-627. -/
def runEnvironmentError {P : Type} (w : World P) (s : State P) (product : Name) : Option Reason :=
  match productByName s.data product, s.project with
  | none, _ => some .noProduct
  | some _, some p => if w.envOk p product then none else some .operationFailed
  | some _, none => some .noProject

/-- `getRunEnvironment`, session.cpp 609-639. -/
def runEnvironment {P : Type} (w : World P) (s : State P) (product : Name) : State P × List Out :=
  match prerequisites s with
  | some e => (s, [errorReply .runEnvironment e])
  | none => (s, [.reply { kind := .runEnvironment, error := runEnvironmentError w s product }])

/-- `getGeneratedFilesForSources`, session.cpp 641-682. -/
def generatedFiles {P : Type} (s : State P) : State P × List Out :=
  match prerequisites s with
  | some e => (s, [errorReply .generatedFiles e])
  | none => (s, [.reply { kind := .generatedFiles }])

/-- `releaseProject`, session.cpp 684-702. A running job is disconnected: the session forgets it. -/
def releaseProject {P : Type} (s : State P) : State P × List Out :=
  if s.project.isNone then (s, [errorReply .released .noProject])
  else ({ s with project := none, data := .stop, stored := none, job := none },
    [.reply { kind := .released }])

/-- `AbstractJob::cancel`, jobs.cpp 169-175: a job that is running starts to cancel. -/
def cancelJob (j : Job) : Job := { j with canceling := true }

/-- `cancelCurrentJob`, session.cpp 704-711. -/
def cancelCurrent {P : Type} (s : State P) : State P × List Out :=
  match s.job with
  | some j => ({ s with stored := none, job := some (cancelJob j) }, [])
  | none => (s, [])

/-- `quitSession`, session.cpp 835-846. The finished handler of a running job is replaced by the
end of the program. -/
def quitSession {P : Type} (s : State P) : State P × List Out :=
  match s.job with
  | some j => ({ s with quitting := true, job := some (cancelJob j) }, [])
  | none => ({ s with quitting := true }, [.closed])

/-- The dispatch of requests, session.cpp 230-261. -/
def request {P : Type} (w : World P) (s : State P) : Req → State P × List Out
  | .resolve mode => setupProject s mode
  | .build sel mode => startJob s .built .build mode (jobProducts s.data (getSelection s.data sel))
  | .clean sel => startJob s .cleaned .clean .never (cleanProducts s.data (getSelection s.data sel))
  | .install sel =>
    startJob s .installDone .install .never (jobProducts s.data (getSelection s.data sel))
  | .addFiles p g fs => editFiles w s .filesAdded w.add p g fs
  | .removeFiles p g fs => editFiles w s .filesRemoved w.remove p g fs
  | .renameFiles p g fs => renameFiles w s p g fs
  | .addDependencies p g ds => addDependencies w s p g ds
  | .runEnvironment p => runEnvironment w s p
  | .generatedFiles => generatedFiles s
  | .release => releaseProject s
  | .quit => quitSession s
  | .cancel => cancelCurrent s
  | .unknown => (s, [errorReply .protocolError .unknownRequest])

/-- What is left of the open project when a resolve job has ended: `SetupProjectJob::finish`,
jobs.cpp 258-270, invalidates it after a success. -/
def leftOpen {P : Type} : Result P → Option P
  | .ok _ => none
  | .failed p => p

/-- `SetupProjectJob::project`: none after a failure, internaljobs.cpp 278-280. -/
def newProject {P : Type} : Result P → Option P
  | .ok p => some p
  | .failed _ => none

/-- `m_project.projectData()`: empty data for an invalid project, project.cpp 806-810. -/
def dataOf {P : Type} (w : World P) (p : Option P) : Tree :=
  match p with
  | some p => w.data p
  | none => .stop

/-- The finished handler of a resolve job, session.cpp 308-331. -/
def resolveFinished {P : Type} (w : World P) (s : State P) (j : Job) (r : Result P) :
    State P × List Out :=
  match s.stored with
  | some mode => startResolve { s with project := leftOpen r, stored := none, job := none } mode
  | none =>
    let data := dataOf w (newProject r)
    ({ s with project := newProject r, data := data, job := none },
      [.reply { kind := .resolved
                error := match r with | .ok _ => none | .failed _ => some .operationFailed
                data := match r with | .ok _ => attach j.mode s.data data | .failed _ => none }])

/-- The project after a build job. -/
def afterJob {P : Type} (s : State P) : Result P → Option P
  | .ok p => some p
  | .failed p => p.or s.project

/-- The finished handler of a build job, session.cpp 363-377. -/
def buildFinished {P : Type} (w : World P) (s : State P) (j : Job) (r : Result P) :
    State P × List Out :=
  let data := dataOf w (afterJob s r)
  ({ s with project := afterJob s r, data := data, job := none },
    [.reply { kind := .built
              error := match r with | .ok _ => none | .failed _ => some .operationFailed
              data := match r with | .ok _ => attach j.mode s.data data | .failed _ => none }])

/-- The finished handlers of clean and install jobs, session.cpp 390-399, 412-421. These jobs do
not change what the project data describe. -/
def otherFinished {P : Type} (s : State P) (k : Kind) (r : Result P) : State P × List Out :=
  ({ s with job := none },
    [.reply { kind := k
              error := match r with | .ok _ => none | .failed _ => some .operationFailed }])

/-- The `finished` signal of the current job. -/
def finished {P : Type} (w : World P) (s : State P) (r : Result P) : State P × List Out :=
  match s.job with
  | none => (s, [])
  | some j =>
    if s.quitting then ({ s with job := none }, [.closed]) else
    match j.kind with
    | .resolve => resolveFinished w s j r
    | .build => buildFinished w s j r
    | .clean => otherFinished s .cleaned r
    | .install => otherFinished s .installDone r

/-- One event. After `quit`, no request is read any more. -/
def step {P : Type} (w : World P) (s : State P) : Event P → State P × List Out
  | .request r => if s.quitting then (s, []) else request w s r
  | .finished r => finished w s r

/-- A history: the state after it, and what was seen at each event. -/
def run {P : Type} (w : World P) : State P → List (Event P) → State P × List (List Out)
  | s, [] => (s, [])
  | s, e :: es =>
    let a := step w s e
    let b := run w a.1 es
    (b.1, a.2 :: b.2)

end Verif.Api
