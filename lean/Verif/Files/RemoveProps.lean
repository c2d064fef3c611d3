import Verif.Files.RemoveLem
/-!
# Removing files and directories (C63)
-/
namespace Verif.Files

variable {e : Env}

theorem each_congr {f g : Path → St → Bool × St} {p : Path} {d : Nat}
    (hf : ∀ n s, WF s.fs → Bound s.fs d → Removed e (p ++ [n]) s (f (p ++ [n]) s).1 (f (p ++ [n]) s).2)
    (hfg : ∀ n s, WF s.fs → Bound s.fs d → f (p ++ [n]) s = g (p ++ [n]) s) :
    ∀ (l : List Name) (s : St), WF s.fs → Bound s.fs d → each f p l s = each g p l s
  | [], _, _, _ => rfl
  | n :: l, s, hw, hb => by
    simp only [each]
    rw [← hfg n s hw hb]
    have h := hf n s hw hb
    exact each_congr hf hfg l _ h.wf (h.trimmed.bound hb)

theorem removeRec_depth (he : Lists e) {d : Nat} : ∀ (k k' : Nat) (p : Path) (s : St), p ≠ [] → WF s.fs → Bound s.fs d →
    d ≤ k + p.length → d ≤ k' + p.length → removeRec e k p s = removeRec e k' p s
  | 0, k', p, s, _, _, hb, hk, _ => by
    have hg : get s.fs p = none := by
      cases hg : get s.fs p with
      | none => rfl
      | some n =>
        have := hb p (by rw [hg]; simp)
        omega
    cases k' <;> simp [removeRec, hg]
  | k + 1, 0, p, s, _, _, hb, _, hk => by
    have hg : get s.fs p = none := by
      cases hg : get s.fs p with
      | none => rfl
      | some n =>
        have := hb p (by rw [hg]; simp)
        omega
    simp [removeRec, hg]
  | k + 1, k' + 1, p, s, _, hw, hb, hk, hk' => by
    have h : ∀ l, each (removeRec e k) p l s = each (removeRec e k') p l s := fun l =>
      each_congr (e := e) (d := d)
        (fun n s hw hb => removeRec_removed he k (p ++ [n]) s (by simp) hw hb (by simp; omega))
        (fun n s hw hb => removeRec_depth he k k' (p ++ [n]) s (by simp) hw hb (by simp; omega) (by simp; omega)) l s hw hb
    simp only [removeRec, h]

/-- However deep one looks for files, beyond the depth of the files that there are, the outcome is the same. -/
theorem C63_terminates (he : Lists e) {p : Path} (hp : p ≠ []) {s : St} (hw : WF s.fs) {k : Nat} (hk : depth s.fs < k) :
    removeRec e k p s = remove e p s :=
  removeRec_depth he _ _ p s hp hw (d := depth s.fs + 1) (fun q hq => Nat.lt_succ_of_le (depth_bound hq)) (by omega) (by omega)

theorem remove_removed (he : Lists e) {p : Path} (hp : p ≠ []) {s : St} (hw : WF s.fs) :
    Removed e p s (remove e p s).1 (remove e p s).2 :=
  removeRec_removed he _ p s hp hw (d := depth s.fs + 1) (fun q hq => Nat.lt_succ_of_le (depth_bound hq)) (by omega)

/-- If removing succeeds, there is nothing left. Files are still in directories. -/
theorem C63_removed (he : Lists e) {p : Path} (hp : p ≠ []) {s : St} (hw : WF s.fs) :
    WF (remove e p s).2.fs ∧ ((remove e p s).1 = true → ∀ q, p <+: q → get (remove e p s).2.fs q = none) := by
  have h := remove_removed he hp hw
  exact ⟨h.wf, fun hb q hq => h.wf.below (h.gone.mp hb) hq⟩

/-- It succeeds if nothing is refused. -/
theorem C63_succeeds (he : Lists e) {p : Path} (hp : p ≠ []) {s : St} (hw : WF s.fs)
    (hok : ∀ n q, p <+: q → e.ok n (.unlink q) = true ∧ e.ok n (.rmdir q) = true) : (remove e p s).1 = true :=
  (remove_removed he hp hw).succeeds hok

/-- Everything else is still there as it was, and nothing is added. What links lead to that have been removed may have become
    writable. -/
theorem C63_others_kept_partial (he : Lists e) {p : Path} (hp : p ≠ []) {s : St} (hw : WF s.fs) (q : Path) (hq : ¬ p <+: q) :
    get (remove e p s).2.fs q = get s.fs q ∨
    ∃ l t n n', p <+: l ∧ get s.fs l = some (.link t) ∧ Leads e s.fs l q ∧ get s.fs q = some n ∧
      get (remove e p s).2.fs q = some n' ∧ MadeWritable n n' := by
  rcases (remove_removed he hp hw).trimmed q with h | h | ⟨l, n, n', hl, hle, hn, hn', hm⟩
  · exact absurd h.1 hq
  · exact .inl h
  · refine .inr ?_
    cases hle with
    | here => exact absurd hl hq
    | link h1 h2 => exact ⟨l, _, n, n', hl, h1, .link h1 h2, hn, hn', hm⟩

/-- Everything else is exactly as it was if there are no links that lead elsewhere. -/
theorem C63_others_kept (he : Lists e) {p : Path} (hp : p ≠ []) {s : St} (hw : WF s.fs)
    (hl : ∀ l q, p <+: l → Leads e s.fs l q → p <+: q) (q : Path) (hq : ¬ p <+: q) : get (remove e p s).2.fs q = get s.fs q := by
  rcases C63_others_kept_partial he hp hw q hq with h | ⟨l, t, n, n', hl', _, hle, _⟩
  · exact h
  · exact absurd (hl l q hl' hle) hq

/-- Nothing is added, and what is left has not been changed, except that it may have become writable. -/
theorem C63_left (he : Lists e) {p : Path} (hp : p ≠ []) {s : St} (hw : WF s.fs) {q : Path} {n : Node}
    (hn : get (remove e p s).2.fs q = some n) : ∃ n', get s.fs q = some n' ∧ (n = n' ∨ MadeWritable n' n) := by
  rcases (remove_removed he hp hw).trimmed q with h | h | ⟨l, m, m', _, _, hm, hm', hmm⟩
  · rw [hn] at h; simp at h
  · exact ⟨n, by rw [← h, hn], .inl rfl⟩
  · rw [hn] at hm'
    simp only [Option.some.injEq] at hm'
    subst hm'
    exact ⟨m, hm, .inr hmm⟩

/-- There is an error if and only if something is left. All that is reported to be left is left. -/
theorem C63_reported (he : Lists e) {p : Path} (hp : p ≠ []) {s : St} (hw : WF s.fs) :
    ((remove e p s).1 = false ↔ get (remove e p s).2.fs p ≠ none) ∧
    ∃ l, (remove e p s).2.errors = s.errors ++ l ∧ ((remove e p s).1 = false ↔ l ≠ []) ∧
      ∀ q ∈ l, p <+: q ∧ get (remove e p s).2.fs q ≠ none := by
  have h := remove_removed he hp hw
  obtain ⟨l, h1, h2, h3⟩ := h.errors
  refine ⟨?_, l, h1, ?_, h3⟩
  · rw [← Bool.not_eq_true, h.gone]
  · rw [← Bool.not_eq_true, h2]

/-- Files are not removed in place of directories. -/
theorem C63_directory (he : Lists e) {p : Path} (hp : p ≠ []) {s : St} (hw : WF s.fs) :
    ((∃ c w t, get s.fs p = some (.file c w t)) → (removeDirectory e p s).1 = false ∧ (removeDirectory e p s).2.fs = s.fs) ∧
    ((∃ w t, get s.fs p = some (.dir w t)) → removeDirectory e p s = remove e p s) ∧
    ((removeDirectory e p s).1 = true → ∀ q, p <+: q → get (removeDirectory e p s).2.fs q = none) := by
  have hf : ∀ n, get s.fs p = some n → (∀ t, n ≠ .link t) → follow e s.fs p = some p := by
    intro n hn hl
    unfold follow
    simp only [followN]
    rw [hn]
    cases n with
    | link t => exact absurd rfl (hl t)
    | _ => rfl
  refine ⟨?_, ?_, ?_⟩
  · rintro ⟨c, w, t, h⟩
    unfold removeDirectory
    rw [hf _ h (by simp)]
    simp [h, fail]
  · rintro ⟨w, t, h⟩
    unfold removeDirectory
    rw [hf _ h (by simp)]
    simp [h]
  · intro h
    unfold removeDirectory at h ⊢
    split at h
    · exact (C63_removed he hp hw).2 h
    · simp at h
    · exact (C63_removed he hp hw).2 h

end Verif.Files
