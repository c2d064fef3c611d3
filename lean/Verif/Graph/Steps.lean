import Verif.Graph.Spec

/-! # Histories of a build graph -/

namespace Verif.Graph

/-- One operation on the build graph.  `strict`: objects are only destroyed after they have been
taken out of the graph; otherwise (tearing down a project) destruction may happen at any time.
`guarded`: plain `connect` is only used where there is no path back. -/
inductive Step (strict guarded : Bool) : State → State → Prop
  | newArtifact (s : State) (n : Nat) (gen : Bool) (path : Nat) (tags : List Nat) :
      s.live n = false → n ≠ 0 → Step strict guarded s (create s n true false gen path tags)
  | newFileDep (s : State) (n path : Nat) :
      s.live n = false → n ≠ 0 → Step strict guarded s (create s n false true false path [])
  | newRule (s : State) (n p : Nat) :
      s.live n = false → n ≠ 0 → Step strict guarded s (createRule s n p)
  | insertArtifact (s : State) (p a : Nat) : s.live a → s.isArt a →
      Step strict guarded s (insertArtifact s p a).state
  | insertFileDep (s : State) (x : Nat) : s.live x → s.isDep x → x ∉ s.fileDeps →
      Step strict guarded s (insertFileDep s x).state
  | removeFileDep (s : State) (x : Nat) : x ∈ s.fileDeps →
      Step strict guarded s (removeFileDep s x)
  | dropFileDep (s : State) (x : Nat) : x ∈ s.fileDeps →
      Step strict guarded s (removeLookup s x)
  | connect (s : State) (p c : Nat) : s.live p → s.live c →
      (guarded → ¬ Reach s.ch c p) →
      Step strict guarded s (connect s p c).state
  | safeConnect (s : State) (f u v : Nat) (r : Res Bool) : s.live u → s.live v →
      s.isArt u → s.isArt v → safeConnect s f u v = some r → Step strict guarded s r.state
  | scanConnect (s s' : State) (f u v : Nat) : s.live u → s.live v → s.isArt u → s.isArt v →
      safeConnect s f u v = some (.ok s' true) →
      Step strict guarded s { s' with scan := modi s'.scan u (ins v) }
  | disconnect (s : State) (u v : Nat) : Step strict guarded s (disconnect s u v)
  | addFileTag (s : State) (a t : Nat) : s.live a → s.isArt a →
      (∀ p, s.prod a = some p → a ∈ s.nodes p) → Step strict guarded s (addFileTag s a t)
  | removeFileTag (s : State) (a t : Nat) : s.live a → s.isArt a →
      (∀ p, s.prod a = some p → a ∈ s.nodes p) → Step strict guarded s (removeFileTag s a t)
  | setFileTags (s : State) (a : Nat) (ts : List Nat) : s.live a → s.isArt a →
      (∀ p, s.prod a = some p → a ∈ s.nodes p) → Step strict guarded s (setFileTags s a ts)
  | removeArtifact (s s' : State) (a : Nat) (d : Bool) :
      removeArtifact s a d true = some s' → Step strict guarded s s'
  | removeExcl (s s' : State) (f a : Nat) : removeExcl true f s a = some s' →
      Step strict guarded s s'
  | newRemovedSet (s : State) : Step strict guarded s { s with removed := [] }
  | destroy (s : State) (n : Nat) : s.live n →
      (strict → (∀ p, n ∉ s.nodes p) ∧ n ∉ s.fileDeps ∧ (∀ p, n ∉ s.scan p) ∧ s.scan n = []) →
      Step strict guarded s (destroy s n)

/-- The states of the build graph which can come about. -/
inductive Hist (strict guarded : Bool) : State → Prop
  | init (ptags : Nat → List Nat) : Hist strict guarded (State.init ptags)
  | step {s s' : State} : Hist strict guarded s → Step strict guarded s s' →
      Hist strict guarded s'

end Verif.Graph
