import Verif.Stale.Run
/-!
# C53: the results of probes that are used again
-/
namespace Verif.Stale

theorem ran_of_runScript {W : Nat → World} : ∀ (s : Script) (n : Nat) (r : Rec) (im : List Path) {v n' : Nat} {r' : Rec}
    {im' : List (Path × Nat)}, runScript W s n r im = some (v, n', r', im') →
    ∃ l, Ran W s n v n' l ∧ ∀ f, (f ∈ l ∨ f ∈ im) → (f, (W n').now) ∈ im' := by
  intro s
  induction s with
  | ret v =>
    intro n r im v' n' r' im' h
    simp only [runScript, Option.some.injEq, Prod.mk.injEq] at h
    obtain ⟨rfl, rfl, rfl, rfl⟩ := h
    exact ⟨[], .ret _ _, fun f hf => List.mem_map.mpr ⟨f, by simpa using hf, rfl⟩⟩
  | ask q k ih =>
    intro n r im v' n' r' im' h
    rw [runScript] at h
    split at h
    · cases h
    · obtain ⟨l, h1, h2⟩ := ih _ _ _ _ h
      by_cases hq : ∃ p, q = .read p
      · obtain ⟨p, rfl⟩ := hq
        refine ⟨p :: l, .read _ _ _ _ _ _ h1, ?_⟩
        intro f hf
        apply h2
        simp only [importOf, List.mem_cons, List.mem_append, List.not_mem_nil, or_false] at hf ⊢
        rcases hf with (h | h) | h
        · exact .inr (.inl h)
        · exact .inl h
        · exact .inr (.inr h)
      · refine ⟨l, .ask _ _ _ _ _ _ (fun p h => hq ⟨p, h⟩) h1, ?_⟩
        intro f hf
        apply h2
        rcases hf with h | h
        · exact .inl h
        · exact .inr (List.mem_append_right _ h)

/-- The probes of this run, so far. -/
def Now (cf : Configure) (W : Nat → World) (n : Nat) (p : Probe) : Prop :=
  ∃ m m' l, Ran W (cf p.key.props p.key.code) m p.value m' l ∧ m' ≤ n ∧ ∀ f ∈ l, (f, (W m').now) ∈ p.imports

theorem Now.mono {cf : Configure} {W : Nat → World} {n n' : Nat} {p : Probe} (h : Now cf W n p) (hn : n ≤ n') :
    Now cf W n' p := by
  obtain ⟨m, m', l, h1, h2, h3⟩ := h
  exact ⟨m, m', l, h1, Nat.le_trans h2 hn, h3⟩

theorem Now.sound {cf : Configure} {W : Nat → World} {n : Nat} {p : Probe} (h : Now cf W n p) : Sound cf p := by
  obtain ⟨m, m', l, h1, _, h3⟩ := h
  exact ⟨W, m, m', l, h1, h3⟩

theorem noted_probes (w : World) (r : Rec) (q : Query) :
    (noted w r q).probes = r.probes ∧ (noted w r q).current = r.current := by
  cases q <;> exact ⟨rfl, rfl⟩

theorem run_fits {cf : Configure} {force : Bool} {old : List Probe} {W : Nat → World} (ho : ∀ p ∈ old, Sound cf p) :
    ∀ (p : Prog) (n : Nat) (r : Rec) {v n' : Nat} {r' : Rec}, run cf force old W p n r = some (v, n', r') →
    (∀ p ∈ r.probes, Sound cf p) → (∀ p ∈ r.current, Now cf W n p) →
    Fits cf force W p n v ∧ ∀ p ∈ r'.probes, Sound cf p := by
  intro p
  induction p with
  | ret v =>
    intro n r v' n' r' h hp hc
    simp only [run, Option.some.injEq, Prod.mk.injEq] at h
    obtain ⟨rfl, rfl, rfl⟩ := h
    exact ⟨.ret _ _, hp⟩
  | ask q k ih =>
    intro n r v' n' r' h hp hc
    rw [run] at h
    split at h
    · cases h
    · have := ih _ _ _ h (by rw [(noted_probes _ _ _).1]; exact hp)
        (by rw [(noted_probes _ _ _).2]; exact fun p hm => (hc p hm).mono (Nat.le_succ n))
      exact ⟨.ask _ _ _ _ this.1, this.2⟩
  | probe key k ih =>
    intro n r v' n' r' h hp hc
    rw [run] at h
    cases hf : findOld (W n) force old key with
    | some p =>
      rw [hf] at h
      simp only [] at h
      unfold findOld at hf
      split at hf
      · cases hf
      · rename_i hforce
        have hm := List.mem_of_find?_eq_some hf
        have hk := List.find?_some hf
        simp only [needsReconfigure, Bool.and_eq_true, decide_eq_true_eq, Bool.not_eq_true', ← Bool.not_eq_true,
          List.any_eq_true, not_exists, not_and, Bool.or_eq_true, not_or] at hk
        obtain ⟨hk, hi⟩ := hk
        have hs := ho p hm
        have := ih _ _ _ h (by
          intro x hx
          rcases List.mem_cons.mp hx with rfl | hx
          · exact hs
          · exact hp x hx) hc
        refine ⟨?_, this.2⟩
        obtain ⟨W₀, m, m', l, h1, h2⟩ := hs
        rw [hk] at h1
        refine .old key k n v' p.value m m' l W₀ (by simpa using hforce) h1 ?_ this.1
        intro f hfl
        have := hi _ (h2 f hfl)
        exact ⟨by simpa using this.1, by simpa using this.2⟩
    | none =>
      rw [hf] at h
      simp only [] at h
      cases hcu : findCurrent r key with
      | some p =>
        rw [hcu] at h
        simp only [] at h
        have hm : p ∈ r.current := List.mem_of_find?_eq_some hcu
        have hk := List.find?_some hcu
        simp only [Bool.and_eq_true, decide_eq_true_eq] at hk
        have := ih _ _ _ h (by
          intro x hx
          rcases List.mem_cons.mp hx with rfl | hx
          · exact (hc _ hm).sound
          · exact hp x hx) hc
        refine ⟨?_, this.2⟩
        obtain ⟨m, m', l, h1, h2, _⟩ := hc p hm
        rw [hk.1, hk.2] at h1
        exact .ran key k n v' p.value m m' n l h1 h2 (Nat.le_refl _) this.1
      | none =>
        rw [hcu] at h
        simp only [] at h
        cases hs : runScript W (cf key.props key.code) n r [] with
        | none => rw [hs] at h; cases h
        | some x =>
          obtain ⟨a, n₁, r₁, im⟩ := x
          rw [hs] at h
          simp only [] at h
          obtain ⟨l, h1, h2⟩ := ran_of_runScript _ _ _ _ hs
          have hsp := runScript_spec _ _ _ _ hs
          have hnow : Now cf W n₁ ⟨key, a, im⟩ := ⟨n, n₁, l, h1, Nat.le_refl _, fun f hf => h2 f (.inl hf)⟩
          have := ih _ _ _ h (by
            intro x hx
            rcases List.mem_cons.mp hx with rfl | hx
            · exact hnow.sound
            · rw [hsp.2.2.2.2.1] at hx
              exact hp x hx) (by
            intro x hx
            rcases List.mem_cons.mp hx with rfl | hx
            · exact hnow
            · rw [hsp.2.2.1] at hx
              exact (hc x hx).mono hsp.1)
          exact ⟨.ran key k n v' a n n₁ n₁ l h1 (Nat.le_refl _) hsp.1 this.1, this.2⟩

/-- A history of builds of a project: the first one resolves it, each further one loads it. -/
inductive History (ld : Loader) : Stored → Prop
  | first (force : Bool) (config env : Nat) (W : Nat → World) (st : Stored) :
      resolve ld force [] config env W = some st → History ld st
  | next (ps : Params) (W : Nat → World) (st st' : Stored) : History ld st → load ld ps W st = some st' →
      History ld st'

theorem resolve_sound {ld : Loader} {force : Bool} {old : List Probe} {config env : Nat} {W : Nat → World} {st : Stored}
    (ho : ∀ p ∈ old, Sound ld.configure p) (h : resolve ld force old config env W = some st) :
    Fits ld.configure force W (ld.prog config env) 0 st.result ∧ ∀ p ∈ st.record.probes, Sound ld.configure p := by
  unfold resolve at h
  cases hr : run ld.configure force old W (ld.prog config env) 0 Rec.empty with
  | none => rw [hr] at h; cases h
  | some x =>
    obtain ⟨v, n, r⟩ := x
    rw [hr] at h
    simp only [Option.some.injEq] at h
    subst h
    exact run_fits ho _ _ _ hr (fun p hp => by cases hp) (fun p hp => by cases hp)

theorem history_sound {ld : Loader} {st : Stored} (h : History ld st) : ∀ p ∈ st.record.probes, Sound ld.configure p := by
  induction h with
  | first force config env W st h => exact (resolve_sound (fun p hp => by cases hp) h).2
  | next ps W st st' _ h ih =>
    unfold load at h
    split at h
    · exact (resolve_sound ih h).2
    · simp only [Option.some.injEq] at h
      subst h
      exact ih

/-- C53: after any number of builds, whenever a project is resolved again, the value of each probe is that of its own
    script with its own properties: from this run, or, unless the user wants probes to be run again, from an earlier run
    whose imported files all exist and have not been modified since. -/
theorem C53_probes (ld : Loader) (ps : Params) (W : Nat → World) (st st' : Stored) (hh : History ld st)
    (hn : necessary ld ps (W 0) st = true) (h : load ld ps W st = some st') :
    Fits ld.configure ps.forceProbes W (ld.prog (ps.effective st).1 (ps.effective st).2) 0 st'.result := by
  unfold load at h
  rw [if_pos hn] at h
  have := (resolve_sound (history_sound hh) h).1
  unfold Params.effective
  split
  · rename_i ho
    rw [if_pos ho, if_pos ho] at this
    exact this
  · rename_i ho
    rw [if_neg ho, if_neg ho] at this
    exact this

end Verif.Stale
