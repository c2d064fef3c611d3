/-!
# Model of `JobLimits` (src/lib/corelib/tools/joblimits.cpp) and property C04
-/

namespace Verif.JobLimits

/-- `std::numeric_limits<int>::max()`. -/
def intMax : Int := 2147483647

/-- `transformLimit`, joblimits.cpp:50-56. -/
def transformLimit (l : Int) : Int := if l = 0 then intMax else if l < -1 then -1 else l

/-- `JobLimit`, joblimits.cpp:58-70: pool name and (already transformed) limit. -/
structure JobLimit (Pool : Type _) where
  pool : Pool
  limit : Int

variable {Pool : Type _} [DecidableEq Pool]

/-- `JobLimits`, joblimits.cpp:72-80. -/
abbrev JobLimits (Pool : Type _) := List (JobLimit Pool)

/-- `JobLimits::setJobLimit(const JobLimit &)`, joblimits.cpp:111-121. -/
def setLimit (d : JobLimits Pool) (l : JobLimit Pool) : JobLimits Pool :=
  match d with
  | [] => [l]
  | c :: cs =>
    if c.pool = l.pool then (if c.limit ≠ l.limit then l :: cs else c :: cs)
    else c :: setLimit cs l

/-- `JobLimits::setJobLimit(const QString &, int)`, joblimits.cpp:123-126, with the `JobLimit`
constructor (61-64). -/
def setJobLimit (d : JobLimits Pool) (pool : Pool) (limit : Int) : JobLimits Pool :=
  setLimit d ⟨pool, transformLimit limit⟩

/-- `JobLimits::getLimit`, joblimits.cpp:128-135. -/
def getLimit : JobLimits Pool → Pool → Int
  | [], _ => -1
  | c :: cs, p => if c.pool = p then c.limit else getLimit cs p

/-- `JobLimits::update`, joblimits.cpp:152-164. -/
def update (d other : JobLimits Pool) : JobLimits Pool :=
  if d.isEmpty then other
  else other.foldl (fun d l => if l.limit ≠ -1 then setLimit d l else d) d

/-- Everything a client can build: empty limits, a user-set limit, an update by other limits. -/
inductive Expr (Pool : Type _)
  | empty
  | set (e : Expr Pool) (pool : Pool) (limit : Int)
  | update (e other : Expr Pool)

/-- The limits a client program ends up with. -/
def Expr.eval : Expr Pool → JobLimits Pool
  | .empty => []
  | .set e p l => setJobLimit e.eval p l
  | .update e o => JobLimits.update e.eval o.eval

/-! ## Specification: a total function from pools to limits, `-1` meaning "not set". -/

/-- Meaning of a limit given by the user: 0 is "unlimited", negative values "not set". -/
def normalized (l : Int) : Int := if l = 0 then 2147483647 else if l < 0 then -1 else l

/-- The map a client program denotes. -/
def Expr.denote : Expr Pool → Pool → Int
  | .empty => fun _ => -1
  | .set e p l => fun q => if q = p then normalized l else e.denote q
  | .update e o => fun q => if o.denote q = -1 then e.denote q else o.denote q

/-! ## Proofs -/

theorem getLimit_setLimit (d : JobLimits Pool) (l : JobLimit Pool) (q : Pool) :
    getLimit (setLimit d l) q = if q = l.pool then l.limit else getLimit d q := by
  induction d with
  | nil => simp [setLimit, getLimit, eq_comm]
  | cons c cs ih => grind [setLimit, getLimit]

/-- No pool occurs twice. -/
def Uniq (d : JobLimits Pool) : Prop := d.Pairwise (fun a b => a.pool ≠ b.pool)

theorem mem_setLimit (d : JobLimits Pool) (l x : JobLimit Pool) (h : x ∈ setLimit d l) :
    x.pool = l.pool ∨ ∃ y ∈ d, y.pool = x.pool := by
  induction d with
  | nil => simp [setLimit] at h; simp [h]
  | cons c cs ih => grind [setLimit]

theorem uniq_setLimit (d : JobLimits Pool) (l : JobLimit Pool) (h : Uniq d) :
    Uniq (setLimit d l) := by
  unfold Uniq at *
  induction d with
  | nil => simp [setLimit]
  | cons c cs ih =>
    rw [List.pairwise_cons] at h
    simp only [setLimit]
    split
    · rename_i hp
      split
      · rw [List.pairwise_cons]; exact ⟨fun a ha => hp ▸ h.1 a ha, h.2⟩
      · rw [List.pairwise_cons]; exact h
    · rename_i hp
      rw [List.pairwise_cons]
      refine ⟨fun a ha => ?_, ih h.2⟩
      rcases mem_setLimit cs l a ha with e | ⟨y, hy, e⟩
      · rw [e]; exact hp
      · rw [← e]; exact h.1 y hy

theorem getLimit_of_not_mem (d : JobLimits Pool) (q : Pool) (h : ∀ x ∈ d, x.pool ≠ q) :
    getLimit d q = -1 := by
  induction d with
  | nil => rfl
  | cons c cs ih => grind [getLimit]

theorem fold_spec (other : JobLimits Pool) : ∀ d : JobLimits Pool, Uniq d → Uniq other →
    Uniq (other.foldl (fun d l => if l.limit ≠ -1 then setLimit d l else d) d) ∧
    ∀ q, getLimit (other.foldl (fun d l => if l.limit ≠ -1 then setLimit d l else d) d) q =
      if getLimit other q = -1 then getLimit d q else getLimit other q := by
  induction other with
  | nil => intro d hd _; simp [getLimit, hd]
  | cons o os ih =>
    intro d hd ho
    unfold Uniq at ho
    rw [List.pairwise_cons] at ho
    simp only [List.foldl_cons]
    by_cases hl : o.limit = -1
    · simp only [hl, ne_eq, not_true, if_false]
      obtain ⟨h1, h2⟩ := ih d hd ho.2
      refine ⟨h1, fun q => ?_⟩
      rw [h2]
      simp only [getLimit]
      by_cases hq : o.pool = q
      · have : getLimit os q = -1 :=
          getLimit_of_not_mem os q (fun x hx => fun e => ho.1 x hx (by rw [hq, e]))
        simp [hq, this, hl]
      · simp [hq]
    · simp only [ne_eq, hl, not_false_eq_true, if_true]
      obtain ⟨h1, h2⟩ := ih (setLimit d o) (uniq_setLimit d o hd) ho.2
      refine ⟨h1, fun q => ?_⟩
      rw [h2, getLimit_setLimit]
      simp only [getLimit]
      by_cases hq : o.pool = q
      · have : getLimit os q = -1 :=
          getLimit_of_not_mem os q (fun x hx => fun e => ho.1 x hx (by rw [hq, e]))
        simp [hq, this, hl]
      · have hq' : ¬ q = o.pool := fun e => hq e.symm
        simp [hq, hq']

theorem eval_spec (e : Expr Pool) : Uniq e.eval ∧ ∀ q, getLimit e.eval q = e.denote q := by
  induction e with
  | empty => simp [Expr.eval, Expr.denote, Uniq, getLimit]
  | set e p l ih =>
    refine ⟨uniq_setLimit _ _ ih.1, fun q => ?_⟩
    simp only [Expr.eval, Expr.denote, setJobLimit, getLimit_setLimit, ih.2]
    by_cases hq : q = p
    · simp only [hq, if_true, transformLimit, normalized, intMax]; grind
    · simp [hq]
  | update e o ihe iho =>
    simp only [Expr.eval, update]
    split
    · rename_i h
      rw [List.isEmpty_iff] at h
      refine ⟨iho.1, fun q => ?_⟩
      have : e.denote q = -1 := by rw [← ihe.2, h]; rfl
      simp only [Expr.denote, this, iho.2]
      grind
    · obtain ⟨h1, h2⟩ := fold_spec o.eval e.eval ihe.1 iho.1
      refine ⟨h1, fun q => ?_⟩
      rw [h2]; simp only [Expr.denote, ihe.2, iho.2]

/-- C04: after any history of `setJobLimit` and `update` calls (the argument of `update` being
built by such calls as well), `getLimit` returns what the last call determining that pool set, with
0 meaning unlimited, negative values meaning "not set", set entries of the argument of `update`
winning and everything else unchanged. -/
theorem C04_limits_are_a_map (e : Expr Pool) (q : Pool) : getLimit e.eval q = e.denote q :=
  (eval_spec e).2 q

/-- C04, one entry per pool: the list of limits never holds two entries for the same pool, so
enumerating it (`count`, `jobLimitAt`) agrees with `getLimit`. -/
theorem C04_unique_entries (e : Expr Pool) :
    e.eval.Pairwise (fun a b => a.pool ≠ b.pool) ∧
    ∀ l ∈ e.eval, e.denote l.pool = l.limit := by
  refine ⟨(eval_spec e).1, fun l hl => ?_⟩
  rw [← (eval_spec e).2]
  have hu := (eval_spec e).1
  generalize e.eval = d at hl hu
  induction d with
  | nil => simp at hl
  | cons c cs ih =>
    unfold Uniq at hu
    rw [List.pairwise_cons] at hu
    rcases List.mem_cons.mp hl with rfl | hl
    · simp [getLimit]
    · have := hu.1 l hl
      simp only [getLimit, this, if_false]
      exact ih hl hu.2

example : (Expr.update (.set (.set .empty "link" 4) "cc" 0) (.set (.set .empty "link" (-7)) "x" 2)
    : Expr String).denote "link" = 4 := by decide

end Verif.JobLimits
