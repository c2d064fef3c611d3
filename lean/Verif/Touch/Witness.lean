import Verif.Touch.Props
/-!
# Concrete cases for C111

The graph is `exG` of `Verif.UpToDate`: source 0 -> object 1 (transformer 0, product 0) ->
program 2 (transformer 1, product 1).
-/
namespace Verif.Touch

open Verif.UpToDate

/-- The generated files of `exG`. -/
def exGen (a : Art) : Bool := a == 1 || a == 2

/-- The library 0 has the object, the program 1 has the executable; product 2 is disabled. -/
def exPs : List Product :=
  [⟨0, true, [0, 1], [1]⟩, ⟨1, true, [2], [2]⟩, ⟨2, false, [], []⟩]

/-- The state after the first build; object built at 7, program at 9. -/
def exBuilt : St where
  ts := fun a => if a = 1 then 7 else if a = 2 then 9 else 5
  depTs := fun _ => 1
  marked := fun _ => false
  status := fun _ => .done

theorem exOut (t a : Nat) : a ∈ exG.outputs t ↔ (t = 0 ∧ a = 1) ∨ (t = 1 ∧ a = 2) := by
  simp only [exG]
  by_cases h0 : t = 0
  · subst h0; simp
  · rw [if_neg h0]
    by_cases h1 : t = 1
    · subst h1; simp
    · simp [h0, h1]

theorem exOwned : Owned exG exGen exPs := by
  refine ⟨fun a => ?_, fun t a ha => ?_⟩
  · simp only [exGen, Bool.or_eq_true, beq_iff_eq, exOut]
    constructor
    · rintro (h | h)
      · exact ⟨0, Or.inl ⟨rfl, h⟩⟩
      · exact ⟨1, Or.inr ⟨rfl, h⟩⟩
    · rintro ⟨t, ⟨_, h⟩ | ⟨_, h⟩⟩
      · exact Or.inl h
      · exact Or.inr h
  · rw [exOut] at ha
    rcases ha with ⟨_, rfl⟩ | ⟨_, rfl⟩ <;> simp [exPs]

theorem exThere : OutputsThere exG (fun _ => true) := by
  intro t ht
  refine ⟨fun _ _ _ => rfl, ?_⟩
  simp only [exG, List.mem_cons, List.not_mem_nil, or_false] at ht
  rcases ht with rfl | rfl
  · exact ⟨1, by simp [exG], rfl⟩
  · exact ⟨2, by simp [exG], rfl⟩

/-- A build that looks at both transformers. -/
def exLook : List Ev := [.start 0 (fun _ => 0), .start 1 (fun _ => 0)]

/-- The source was edited at 15, the times were updated at 20: both transformers are looked at and
nothing is done. The hypotheses of `C111_next_build_partial` hold. -/
theorem exQuietHist : Hist exG exO (fun _ => false)
    (beginBuild exGen (fun _ => 15) (fun _ => 1)
      (updateTimestamps exGen (fun _ => true) 20 [] exPs exBuilt)) 20 exLook := by
  refine ⟨⟨by simp [exG], rfl, ?_⟩, ?_⟩
  · intro a ha c hc t' ht'
    rw [exOut] at ha ht'
    rcases ha with ⟨_, rfl⟩ | ⟨h, _⟩
    · simp [exG] at hc; grind
    · grind
  intro st1 l h1
  cases h1
  refine ⟨⟨by simp [exG], rfl, ?_⟩, fun _ _ _ => trivial⟩
  intro a ha c hc t' ht'
  rw [exOut] at ha ht'
  rcases ha with ⟨h, _⟩ | ⟨_, rfl⟩
  · grind
  · simp [exG] at hc
    have : t' = 0 := by grind
    subst this
    rfl

example : ∃ st2, run exG exO (fun _ => false)
    (beginBuild exGen (fun _ => 15) (fun _ => 1)
      (updateTimestamps exGen (fun _ => true) 20 [] exPs exBuilt)) exLook = some (st2, []) ∧
    ∀ a, exGen a = true → (fun _ => true : Art → Bool) a = true → st2.ts a = 20 :=
  C111_next_build_partial exG exG_wf (fun _ => rfl) exGen (fun _ => true) exPs exOwned exBuilt 20
    (by decide) (fun a => by simp only [exBuilt]; split <;> (try split) <;> omega) exThere
    (fun _ _ => rfl) (fun _ => 15) (fun _ => 1) (fun _ _ => by decide) (fun _ => by decide) exO
    (fun _ => false) rfl (fun _ => rfl) 20 exLook exQuietHist

/-- Without the command the edit at 15 starts the compiler. -/
example : (run exG exO (fun _ => false)
    (beginBuild exGen (fun _ => 15) (fun _ => 1) exBuilt)
    [.start 0 (fun _ => 0)]).map (·.2) = some [0] := by decide +kernel

/-- An edit at 25, after the command, is noticed: `C111_later_edit` speaks about such a build. -/
example : (run exG exO (fun _ => false)
    (beginBuild exGen (fun _ => 25) (fun _ => 1)
      (updateTimestamps exGen (fun _ => true) 20 [] exPs exBuilt))
    [.start 0 (fun _ => 0), .done 0 30 (fun _ => 30), .start 1 (fun _ => 0),
      .done 1 31 (fun _ => 31)]).map (fun r => (r.2, r.1.status 0)) = some ([0, 1], .done) := by
  decide +kernel

/-- The hypotheses of `C111_later_edit` hold for the part of this build that compiles. -/
example : 0 ∈ [0] := by
  refine C111_later_edit exG exG_wf exGen (fun _ => true) exPs exOwned [] exBuilt 20
    (fun a => by simp only [exBuilt]; split <;> (try split) <;> omega) (fun _ => 25) (fun _ => 1)
    0 1 0 (by simp [exG]) rfl (by simp [exG]) (fun t h => by rw [exOut] at h; omega) (by decide)
    exO (fun _ => false) rfl rfl rfl 20 [.start 0 (fun _ => 0), .done 0 30 (fun _ => 30)] _ [0]
    ?_ rfl rfl
  refine ⟨⟨by simp [exG], rfl, ?_⟩, ?_⟩
  · intro a ha c hc t' ht'
    rw [exOut] at ha ht'
    rcases ha with ⟨_, rfl⟩ | ⟨h, _⟩
    · simp [exG] at hc; grind
    · grind
  intro st1 l h1
  cases h1
  exact ⟨⟨rfl, by decide, by intro a ha; simp, Or.inl ⟨1, by simp [exG], rfl⟩⟩,
    fun _ _ _ => trivial⟩

/-- A disabled product is left alone, a file that does not exist keeps its time. -/
example : (updateTimestamps exGen (fun a => a != 2) 20 [] exPs exBuilt).ts 1 = 20 ∧
    (updateTimestamps exGen (fun a => a != 2) 20 [] exPs exBuilt).ts 2 = 9 ∧
    opened (fun a => a != 2) (productsToUse [] exPs) = [1] := by decide +kernel

/-- **C111 finding.** Naming only some of the products marks the *other* ones as out of date:
everything is up to date (a build would do nothing), `qbs update-timestamps -p` is called for the
library, and now the next build links the program, because its input has become newer than it. -/
theorem C111_some_products :
    (run exG exO (fun _ => false) (beginBuild exGen (fun _ => 5) (fun _ => 1) exBuilt)
      exLook).map (·.2) = some [] ∧
    (run exG exO (fun _ => false)
      (beginBuild exGen (fun _ => 5) (fun _ => 1)
        (updateTimestamps exGen (fun _ => true) 20 [0] exPs exBuilt)) exLook).map (·.2) =
      some [1] := by
  exact ⟨by decide +kernel, by decide +kernel⟩

/-- **C111 finding.** A build that was interrupted after the object was compiled has left the
linking transformer marked for a re-run. The command does not clear the mark: although all times
are those of the command and nothing has changed since, the next build links the program. (The
documentation of `Project::updateTimestamps` says that afterwards "the build graph will have the
same state as if a successful build had been done".) -/
theorem C111_interrupted :
    ((run exG exO (fun _ => false) (beginBuild exGen (fun _ => 15) (fun _ => 1) exBuilt)
        [.start 0 (fun _ => 0), .done 0 17 (fun _ => 17)]).bind fun r =>
      run exG exO (fun _ => false)
        (beginBuild exGen (fun _ => 15) (fun _ => 1)
          (updateTimestamps exGen (fun _ => true) 20 [] exPs r.1)) exLook).map (·.2) =
      some [1] := by
  decide +kernel

/-- **C111 finding.** A build with `--check-timestamps` goes by the times on the disk, and the
command changes at most those of the targets (it opens them for appending). The object keeps its
old time on the disk, here 7, so the edit at 15 starts the compiler although the times were
updated at 20. -/
theorem C111_check_timestamps :
    1 ∉ opened (fun _ => true) (productsToUse [] [⟨0, true, [0, 1, 2], [2]⟩]) ∧
    (run exG { exO with force := true } (fun _ => false)
      (beginBuild exGen (fun _ => 15) (fun _ => 1)
        (updateTimestamps exGen (fun _ => true) 20 [] [⟨0, true, [0, 1, 2], [2]⟩] exBuilt))
      [.start 0 (fun a => if a = 2 then 20 else 7)]).map (·.2) = some [0] := by
  exact ⟨by decide +kernel, by decide +kernel⟩

end Verif.Touch
