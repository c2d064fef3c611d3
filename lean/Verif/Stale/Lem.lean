import Verif.Stale.Spec
/-!
# C53: what is remembered
-/
namespace Verif.Stale

theorem mem_ins {α β : Type} [DecidableEq α] {k : α} {v : β} {l : List (α × β)} {e : α × β} :
    e ∈ ins k v l ↔ e = (k, v) ∨ (e ∈ l ∧ e.1 ≠ k) := by
  unfold ins
  simp

/-- What was asked is in the tables, and what is in the tables was asked. -/
structure Covered (W : Nat → World) (n : Nat) (r : Rec) : Prop where
  time : ∀ q a, (q, a) ∈ r.asked → ∃ i, i < n ∧ a = answer (W i) q
  read : ∀ p a, (Query.read p, a) ∈ r.asked → p ∈ r.files ∧ a ≠ .none
  existing : ∀ p a, (Query.exists p, a) ∈ r.asked → ∃ b, (p, b) ∈ r.existing
  existing' : ∀ p b, (p, b) ∈ r.existing → (Query.exists p, .bool b) ∈ r.asked
  modified : ∀ p a, (Query.modified p, a) ∈ r.asked → ∃ b, (p, b) ∈ r.modified
  modified' : ∀ p b, (p, b) ∈ r.modified → (Query.modified p, .time b) ∈ r.asked
  entries : ∀ p f a, (Query.entries p f, a) ∈ r.asked → ∃ b, ((p, f), b) ∈ r.entries
  entries' : ∀ p f b, ((p, f), b) ∈ r.entries → (Query.entries p f, .paths b) ∈ r.asked
  source : ∀ pr p a, (Query.source pr p, a) ∈ r.asked → pr ∈ r.products ∧ (a = .bool false → (pr, p) ∈ r.missing)
  missing' : ∀ pr p, (pr, p) ∈ r.missing → (Query.source pr p, .bool false) ∈ r.asked
  wild : ∀ pr x a, (Query.wild pr x, a) ∈ r.asked → pr ∈ r.products ∧ ∃ st l, a = .paths l ∧ (pr, x, st, l) ∈ r.wilds
  wild' : ∀ pr x st l, (pr, x, st, l) ∈ r.wilds → (Query.wild pr x, .paths l) ∈ r.asked ∧
    ∃ i, i < n ∧ st = ((W i).wildDirs x).map (fun d => (d, (W i).mtime d))
  files' : ∀ p, p ∈ r.files → ∃ a, (Query.read p, a) ∈ r.asked
  products' : ∀ p, p ∈ r.products → (∃ q a, (Query.source p q, a) ∈ r.asked) ∨ ∃ x a, (Query.wild p x, a) ∈ r.asked

theorem covered_empty (W : Nat → World) : Covered W 0 Rec.empty := by
  constructor <;> intros <;> first | contradiction | (rename_i h; simp [Rec.empty] at h)

theorem Covered.congr {W : Nat → World} {n : Nat} {r s : Rec} (h : Covered W n r) (h1 : s.asked = r.asked)
    (h2 : s.files = r.files) (h3 : s.existing = r.existing) (h4 : s.modified = r.modified)
    (h5 : s.entries = r.entries) (h6 : s.products = r.products) (h7 : s.missing = r.missing)
    (h8 : s.wilds = r.wilds) : Covered W n s := by
  cases r
  cases s
  simp only at h1 h2 h3 h4 h5 h6 h7 h8
  subst h1 h2 h3 h4 h5 h6 h7 h8
  exact ⟨h.1, h.2, h.3, h.4, h.5, h.6, h.7, h.8, h.9, h.10, h.11, h.12, h.13, h.14⟩

theorem answer_read {w : World} {p : Path} (h : w.has p = true) : answer w (.read p) ≠ .none := by
  unfold World.has at h
  unfold answer
  cases hc : w.content p with
  | none => rw [hc] at h; cases h
  | some s => rw [hc] at h; simp [hc]

theorem covered_noted {W : Nat → World} {n : Nat} {r : Rec} {q : Query} (h : Covered W n r)
    (hq : ∀ p, q = .read p → answer (W n) q ≠ .none) : Covered W (n + 1) (noted (W n) r q) := by
  have ht : ∀ q' a, (q', a) ∈ (noted (W n) r q).asked → ∃ i, i < n + 1 ∧ a = answer (W i) q' := by
    intro q' a hm
    rcases List.mem_cons.mp hm with hm | hm
    · cases hm; exact ⟨n, by omega, rfl⟩
    · have := h.time q' a hm
      obtain ⟨i, hi, ha⟩ := this
      exact ⟨i, by omega, ha⟩
  have hw : ∀ pr x st l, (pr, x, st, l) ∈ r.wilds → (Query.wild pr x, .paths l) ∈ r.asked ∧
      ∃ i, i < n + 1 ∧ st = ((W i).wildDirs x).map (fun d => (d, (W i).mtime d)) := by
    intro pr x st l hm
    obtain ⟨h1, i, hi, h2⟩ := h.wild' pr x st l hm
    exact ⟨h1, i, by omega, h2⟩
  obtain ⟨-, c2, c3, c4, c5, c6, c7, c8, c9, c10, c11, -, c13, c14⟩ := h
  cases q with
  | read p =>
    have := hq p rfl
    generalize hA : answer (W n) (.read p) = A at *
    refine ⟨ht, ?_, ?_, ?_, ?_, ?_, ?_, ?_, ?_, ?_, ?_, ?_, ?_, ?_⟩ <;> clear ht <;>
      simp only [noted, note, List.mem_cons, Prod.mk.injEq, hA, reduceCtorEq, false_and, false_or] <;> grind
  | «exists» p =>
    have hA : answer (W n) (Query.«exists» p) = .bool ((W n).has p) := rfl
    refine ⟨ht, ?_, ?_, ?_, ?_, ?_, ?_, ?_, ?_, ?_, ?_, ?_, ?_, ?_⟩ <;> clear ht <;>
      simp only [noted, note, List.mem_cons, Prod.mk.injEq, mem_ins, hA, reduceCtorEq, false_and, false_or] <;> grind
  | modified p =>
    have hA : answer (W n) (.modified p) = .time ((W n).mtime p) := rfl
    refine ⟨ht, ?_, ?_, ?_, ?_, ?_, ?_, ?_, ?_, ?_, ?_, ?_, ?_, ?_⟩ <;> clear ht <;>
      simp only [noted, note, List.mem_cons, Prod.mk.injEq, mem_ins, hA, reduceCtorEq, false_and, false_or] <;> grind
  | entries p f =>
    have hA : answer (W n) (.entries p f) = .paths ((W n).listing p f) := rfl
    refine ⟨ht, ?_, ?_, ?_, ?_, ?_, ?_, ?_, ?_, ?_, ?_, ?_, ?_, ?_⟩ <;> clear ht <;>
      simp only [noted, note, List.mem_cons, Prod.mk.injEq, mem_ins, hA, reduceCtorEq, false_and, false_or] <;> grind
  | source pr p =>
    have hA : answer (W n) (.source pr p) = .bool ((W n).has p) := rfl
    cases hh : (W n).has p <;> rw [hh] at hA <;>
    refine ⟨ht, ?_, ?_, ?_, ?_, ?_, ?_, ?_, ?_, ?_, ?_, ?_, ?_, ?_⟩ <;> clear ht <;>
      simp only [noted, note, List.mem_cons, Prod.mk.injEq, mem_ins, hA, hh, if_true, Bool.false_eq_true, if_false, reduceCtorEq, false_and, false_or] <;> grind
  | wild pr x =>
    have hA : answer (W n) (.wild pr x) = .paths ((W n).expand x) := rfl
    refine ⟨ht, ?_, ?_, ?_, ?_, ?_, ?_, ?_, ?_, ?_, ?_, ?_, ?_, ?_⟩ <;> clear ht <;>
      simp only [noted, note, List.mem_cons, Prod.mk.injEq, mem_ins, hA, reduceCtorEq, false_and, false_or] <;> grind
  | canonical p =>
    refine ⟨ht, ?_, ?_, ?_, ?_, ?_, ?_, ?_, ?_, ?_, ?_, ?_, ?_, ?_⟩ <;> clear ht <;>
      simp only [noted, note, List.mem_cons, Prod.mk.injEq, reduceCtorEq, false_and, false_or] <;> assumption
  | lookup p =>
    refine ⟨ht, ?_, ?_, ?_, ?_, ?_, ?_, ?_, ?_, ?_, ?_, ?_, ?_, ?_⟩ <;> clear ht <;>
      simp only [noted, note, List.mem_cons, Prod.mk.injEq, reduceCtorEq, false_and, false_or] <;> assumption
  | text p =>
    refine ⟨ht, ?_, ?_, ?_, ?_, ?_, ?_, ?_, ?_, ?_, ?_, ?_, ?_, ?_⟩ <;> clear ht <;>
      simp only [noted, note, List.mem_cons, Prod.mk.injEq, reduceCtorEq, false_and, false_or] <;> assumption

end Verif.Stale
