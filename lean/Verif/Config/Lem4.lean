import Verif.Config.Lem3
/-!
# C109, C110: normalised keys, and that all commands keep the stores tidy
-/
namespace Verif.Config

open Verif.Literal (Str Var)
open Verif.Settings (internalRepresentation externalRepresentation forbidden)

theorem fileKey_noDot (k : Str) : '.' ∉ fileKey k :=
  normalizedKey_noDot (Settings.internal_noDot k)

theorem fileKey_idem (k : Str) : normalizedKey (fileKey k) = fileKey k := normalizedKey_idem _

/-! ### Tidy stores -/

theorem tidy_nil : Tidy [] := ⟨by simp, by simp, by simp⟩

theorem tidy_filter {m : Store} (h : Tidy m) (P : Str × SVal → Bool) : Tidy (m.filter P) := by
  refine ⟨?_, fun e he => h.normal e (List.mem_filter.1 he).1, fun e he => h.noDots e (List.mem_filter.1 he).1⟩
  exact h.different.sublist (List.filter_sublist.map _)

theorem tidy_put {m : Store} (h : Tidy m) (k : Str) (v : SVal) : Tidy (put m (internalRepresentation k) v) := by
  unfold put
  split
  · exact h
  · rename_i hk
    have hf := tidy_filter h (fun e => !(e.1 == normalizedKey (internalRepresentation k)))
    refine ⟨?_, ?_, ?_⟩
    · rw [List.map_cons, List.nodup_cons]
      refine ⟨?_, hf.different⟩
      intro hm
      obtain ⟨e, he, hek⟩ := List.mem_map.1 hm
      have := (List.mem_filter.1 he).2
      simp only at hek
      simp [hek] at this
    · intro e he
      rcases List.mem_cons.1 he with rfl | he
      · exact ⟨normalizedKey_idem _, hk⟩
      · exact hf.normal e he
    · intro e he
      rcases List.mem_cons.1 he with rfl | he
      · exact fileKey_noDot k
      · exact hf.noDots e he

theorem tidy_remove {m : Store} (h : Tidy m) (k : Str) : Tidy (remove m k) := by
  unfold remove del
  split
  · exact tidy_nil
  · exact tidy_filter h _

theorem tidy_removes : ∀ (ks : List Str) {m : Store}, Tidy m → Tidy (ks.foldl remove m) := by
  intro ks
  induction ks with
  | nil => intro m h; exact h
  | cons k ks ih => intro m h; exact ih (tidy_remove h k)

theorem tidy_setValues : ∀ (l : List (Str × SVal)) {m : Store}, Tidy m → Tidy (setValues m l).1 := by
  intro l
  induction l with
  | nil => intro m h; exact h
  | cons e l ih =>
    intro m h
    obtain ⟨k, v⟩ := e
    unfold setValues setValue
    split
    · exact h
    · rename_i m' hm
      split at hm
      · cases hm
      · simp only [Option.some.injEq] at hm
        rw [← hm]
        exact ih (tidy_put h k v)

theorem tidy_target {s : St} (h : AllTidy s) (o : Scopes) : Tidy (target s o) := by
  cases o
  · exact h.1
  · exact h.1
  · exact h.2

theorem tidy_setTarget {s : St} (h : AllTidy s) {m : Store} (hm : Tidy m) (o : Scopes) :
    AllTidy (setTarget s m o) := by
  cases o
  · exact ⟨hm, h.2⟩
  · exact ⟨hm, h.2⟩
  · exact ⟨h.1, hm⟩

/-- The commands of `qbs config` that change settings. -/
inductive Cmd where
  | set (key rawInput : Str)
  | unset (names : List Str)
  | addProfile (name : Str) (properties : List (Str × Str))
  | importText (text : Str)
  | importJson (doc : Option (List (Str × Json)))

def run (s : St) (o : Scopes) : Cmd → St
  | .set k v => (set s o k v).1
  | .unset ks => unset s o ks
  | .addProfile n ps => (addProfile s o n ps).1
  | .importText t => (importText s o t).1
  | .importJson d => (importJson s o d).1

/-- Whatever commands are run, also failing ones, the stores are tidy. -/
theorem tidy_run (s : St) (o : Scopes) (c : Cmd) (h : AllTidy s) : AllTidy (run s o c) := by
  cases c with
  | set k v => exact tidy_setTarget h (tidy_setValues _ (tidy_target h o)) o
  | unset ks => exact tidy_setTarget h (tidy_removes ks (tidy_target h o)) o
  | addProfile n ps => exact tidy_setTarget h (tidy_setValues _ (tidy_remove (tidy_target h o) _)) o
  | importText t => exact tidy_setTarget h (tidy_setValues _ (tidy_removes _ (tidy_target h o))) o
  | importJson d => exact tidy_setTarget h (tidy_setValues _ (tidy_removes _ (tidy_target h o))) o

/-- Settings after any history of commands, each with its own options. -/
theorem tidy_history (l : List (Scopes × Cmd)) :
    AllTidy (l.foldl (fun s p => run s p.1 p.2) ⟨[], []⟩) := by
  have : ∀ (l : List (Scopes × Cmd)) (s : St), AllTidy s → AllTidy (l.foldl (fun s p => run s p.1 p.2) s) := by
    intro l
    induction l with
    | nil => intro s h; exact h
    | cons p l ih => intro s h; exact ih _ (tidy_run s p.1 p.2 h)
  exact this l _ ⟨tidy_nil, tidy_nil⟩

end Verif.Config
