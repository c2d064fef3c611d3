import Verif.Stale.Model
/-!
# C53: specification
-/
namespace Verif.Stale

/-- What resolving from scratch in a world that does not change gives. -/
def scratch (ld : Loader) (config env : Nat) (w : World) : Option Nat :=
  (resolve ld true [] config env (fun _ => w)).map (·.result)

/-- Times, up to the end of resolving: the clock does not go backwards; and a file with other contents than at some
    moment was modified after that moment. -/
structure Honest (W : Nat → World) (end_ : Nat) (w : World) : Prop where
  clock : ∀ i j, i ≤ j → (W i).now ≤ (W j).now
  later : ∀ i p, (W i).now ≤ end_ → (W i).content p ≠ w.content p → (W i).now < w.mtime p

/-- Questions whose answers are remembered and compared. -/
def Query.ByValue : Query → Prop
  | .exists _ | .modified _ | .entries _ _ | .source _ _ | .wild _ _ => True
  | _ => False

/-- Questions that are not forgotten. -/
def Query.Tracked : Query → Prop
  | .canonical _ | .lookup _ | .text _ => False
  | _ => True

/-- No question was answered in two ways. -/
def Consistent (r : Rec) : Prop := ∀ q a a', q.ByValue → (q, a) ∈ r.asked → (q, a') ∈ r.asked → a = a'

/-- Files made by module providers that have other contents than those read were modified after the end. -/
def Settled (ld : Loader) (st : Stored) (w : World) : Prop := ∀ p a, (Query.read p, a) ∈ st.record.asked →
  generated ld st p = true → answer w (.read p) ≠ a → st.end_ < w.mtime p

/-- Source files that existed still exist. -/
def SourcesKept (st : Stored) (w : World) : Prop := ∀ pr p, (Query.source pr p, Answer.bool true) ∈ st.record.asked →
  w.has p = true

/-- The configuration and the environment that count: those of the last time unless they are to be overridden. -/
def Params.effective (ps : Params) (st : Stored) : Nat × Nat :=
  if ps.override then (ps.config, ps.env) else (st.config, st.env)

/-- What happens between two worlds is missed: a project is resolved in the first, it is decided in the second that
    nothing has to be done, but resolving from scratch there does not give what was found in the first. -/
def Missed (ld : Loader) (W : Nat → World) (w : World) : Prop := ∃ st, resolve ld false [] 0 0 W = some st ∧
  necessary ld ⟨true, false, 0, 0, false⟩ w st = false ∧ scratch ld 0 0 w ≠ some st.result

/-- A script, started at one moment, ends at another with a value, having read files. -/
inductive Ran (W : Nat → World) : Script → Nat → Nat → Nat → List Path → Prop
  | ret (v n : Nat) : Ran W (.ret v) n v n []
  | read (p : Path) (k : Answer → Script) (n v n' : Nat) (l : List Path) :
      Ran W (k (answer (W n) (.read p))) (n + 1) v n' l → Ran W (.ask (.read p) k) n v n' (p :: l)
  | ask (q : Query) (k : Answer → Script) (n v n' : Nat) (l : List Path) : (∀ p, q ≠ .read p) →
      Ran W (k (answer (W n) q)) (n + 1) v n' l → Ran W (.ask q k) n v n' l

/-- What resolving may give if the results of probes may be those of earlier runs of the same script: a probe's value
    is that of its script in this run, or, unless probes are to be run again, that of the same script in an earlier run,
    none of the files of which was modified since or is gone. -/
inductive Fits (cf : Configure) (force : Bool) (W : Nat → World) : Prog → Nat → Nat → Prop
  | ret (v n : Nat) : Fits cf force W (.ret v) n v
  | ask (q : Query) (k : Answer → Prog) (n v : Nat) :
      Fits cf force W (k (answer (W n) q)) (n + 1) v → Fits cf force W (.ask q k) n v
  | ran (key : Key) (k : Nat → Prog) (n v a m m' n' : Nat) (l : List Path) :
      Ran W (cf key.props key.code) m a m' l → m' ≤ n' → n ≤ n' →
      Fits cf force W (k a) n' v → Fits cf force W (.probe key k) n v
  | old (key : Key) (k : Nat → Prog) (n v a m m' : Nat) (l : List Path) (W₀ : Nat → World) : force = false →
      Ran W₀ (cf key.props key.code) m a m' l →
      (∀ f ∈ l, (W n).has f = true ∧ (W n).mtime f ≤ (W₀ m').now) →
      Fits cf force W (k a) n v → Fits cf force W (.probe key k) n v

/-- A remembered probe has the value of its script at some time, and that time is known of all files read. -/
def Sound (cf : Configure) (p : Probe) : Prop := ∃ W m m' l, Ran W (cf p.key.props p.key.code) m p.value m' l ∧
  ∀ f ∈ l, (f, (W m').now) ∈ p.imports

end Verif.Stale
