import Verif.Api.Model

/-
What the documentation of the session (doc/appendix/json-api.qdoc) says about requests and replies,
in terms of what a client sends and sees.
-/

namespace Verif.Api

/-- What a client sees of a history: each event with the messages and job starts that follow it. -/
def trace {P : Type} (w : World P) (es : List (Event P)) : List (Event P × List Out) :=
  es.zip (run w {} es).2

/-- The type of the reply to a request, as documented; `quit` and `cancel-job` have none. -/
def replyTo : Req → Option Kind
  | .resolve _ => some .resolved
  | .build _ _ => some .built
  | .clean _ => some .cleaned
  | .install _ => some .installDone
  | .addFiles _ _ _ => some .filesAdded
  | .removeFiles _ _ _ => some .filesRemoved
  | .renameFiles _ _ _ => some .filesRenamed
  | .addDependencies _ _ _ => some .dependenciesAdded
  | .runEnvironment _ => some .runEnvironment
  | .generatedFiles => some .generatedFiles
  | .release => some .released
  | .unknown => some .protocolError
  | .quit => none
  | .cancel => none

/-- The replies a client may expect for the requests it has sent. -/
def expected {P : Type} : List (Event P) → List Kind
  | [] => []
  | .request r :: es => (replyTo r).toList ++ expected es
  | .finished _ :: es => expected es

/-- The replies among the messages. -/
def repliesIn : List Out → List Reply
  | [] => []
  | .reply r :: os => r :: repliesIn os
  | _ :: os => repliesIn os

/-- All replies in what a client sees. -/
def replies {P : Type} (t : List (Event P × List Out)) : List Reply :=
  t.flatMap (fun x => repliesIn x.2)

/-- A client that keeps to the documentation: while a request has not been answered (`owed`), it
sends `cancel-job` or `quit` only. -/
def Polite {P : Type} (owed : Nat) : List (Event P × List Out) → Prop
  | [] => True
  | (.request r, os) :: t =>
    ((replyTo r).isSome → owed = 0)
      ∧ Polite (owed + (replyTo r).toList.length - (repliesIn os).length) t
  | (.finished _, os) :: t => Polite (owed - (repliesIn os).length) t

/-- No `quit` was sent. -/
def NoQuit {P : Type} (es : List (Event P)) : Prop := Event.request .quit ∉ es

/-- The reply to the request that starts a job of some kind. -/
def JobKind.reply : JobKind → Kind
  | .resolve => .resolved
  | .build => .built
  | .clean => .cleaned
  | .install => .installDone

/-- The last job among the messages that started. -/
def lastStart (now : Option JobKind) : List Out → Option JobKind
  | [] => now
  | .start k _ :: os => lastStart (some k) os
  | _ :: os => lastStart now os

/-- The job that runs after a history: the last one that was started, unless it has finished. -/
def running {P : Type} (now : Option JobKind) : List (Event P × List Out) → Option JobKind
  | [] => now
  | (.request _, os) :: t => running (lastStart now os) t
  | (.finished _, os) :: t => running (lastStart none os) t

/-- All products of a project and its subprojects. -/
def Tree.products : Tree → List Product
  | .stop => []
  | .node _ own subs siblings => own ++ subs.products ++ siblings.products

/-- No two products have the same full display name. -/
def Distinct (t : Tree) : Prop := (t.products.map (·.name)).Nodup

/-- The copy of the project data that a client keeps: what came with the last reply that carried
data; nothing after a resolve that failed or a release that succeeded. -/
def copyAfter (copy : Tree) (r : Reply) : Tree :=
  match r.data with
  | some d => d
  | none =>
    if r.kind = .resolved ∧ r.error = some .operationFailed then .stop
    else if r.kind = .released ∧ r.error = none then .stop
    else copy

def clientCopy {P : Type} (t : List (Event P × List Out)) : Tree :=
  (replies t).foldl copyAfter .stop

/-- The client asks for data whenever they have changed. -/
def AsksForData {P : Type} (es : List (Event P)) : Prop :=
  Event.request (.resolve .never) ∉ es ∧ ∀ sel, Event.request (.build sel .never) ∉ es

/-- The project after the edits that succeeded among some. -/
def editsDone {P : Type} (f : P → Name → Option P) (p : P) (files : List Name) : P :=
  files.foldl (fun q x => (f q x).getD q) p

/-- The files that could not be edited: the i-th one is among them if its edit fails in the project
that the edits before it have left. -/
def failedEdits {P : Type} (f : P → Name → Option P) (p : P) (files : List Name) : List Name :=
  (List.range files.length).filterMap fun i =>
    (files[i]?).filter fun x => (f (editsDone f p (files.take i)) x).isNone

end Verif.Api
