import Verif.Deps.Props

/-! # Witnesses for the dependencies of a product -/

namespace Verif.Deps
open Verif.Version

variable {P : Now → Prop}

/-- Steps until nothing is left to be done or something else happens -/
def exec (w : World) (now : Now) : Nat → St → St
  | 0, s => s
  | k + 1, s =>
    match step w now s with
    | .next s' => exec w now k s'
    | _ => s

theorem exec_reach {w : World} {now : Now} (hP : P now) : ∀ k s, Reach P w s → Reach P w (exec w now k s)
  | 0, _, h => h
  | k + 1, s, h => by
    unfold exec
    split
    · rename_i s' hs; exact exec_reach hP k s' (.next h hP hs)
    · exact h

def idle : Now := { queued := fun _ => false, mayDefer := false, ofType := fun _ => [] }

abbrev Any : Now → Prop := fun _ => True

/-- An application, and a library that exports a dependency on the module "b.x", which "c" depends on as well -/
def w1 : World :=
  { prods := [{ name := "app" }, { name := "lib", depends := [{ name := ["b"], submodules := some [["x"]], range := { minimum := ⟨1, 0, 0, 0⟩ } }] }]
    self := 0
    depends := [{ name := ["lib"] }, { name := ["c"] }, { name := ["no"], required := false }, { name := ["off"], enabled := false }]
    module := fun n _ =>
      if n = ["qbs"] then .file {} else if n = ["b", "x"] then .file {} else if n = ["c"] then .file { depends := [{ name := ["b", "x"], range := { minimum := ⟨2, 0, 0, 0⟩ } }] }
      else .none }

def s1 : St := exec w1 idle 100 (initial w1)

theorem success1 : Success Any w1 s1 := ⟨exec_reach trivial _ _ .initial, by decide +kernel, by decide +kernel⟩


/-- The modules with these names have a file each. -/
def files (l : List (Name × ModFile)) : Name → Range → Found := fun n _ =>
  if n = ["qbs"] then .file {} else match l.lookup n with | some f => .file f | none => .none

theorem asks_plain {w : World} {d : Dep} {n : Name} {pr i : String} (hadj : adjust w d = .ok d) (hm : d.muxIds = []) (hp : d.profiles = none)
    (hs : d.submodules = none) (h : Asks w d n pr i) : n = d.name ∧ pr = "" ∧ i = "" := by
  obtain ⟨_, _, _, h1, h2, d', h3, h4⟩ := h
  rw [hadj] at h3
  cases h3
  refine ⟨?_, ?_, ?_⟩
  · rcases h1 with h1 | ⟨subs, h1, _⟩
    · exact h1.2
    · rw [hs] at h1; cases h1
  · rw [hp] at h2; simpa using h2
  · rw [hm] at h4; simpa using h4

/-- C66_fulfilled: the module "c" asks for "b.x" -/
example : ∃ m ∈ s1.modules, m.name = ["c"] ∧ DependsOf w1 s1.modules (.module m.id) [{ name := ["b", "x"], range := { minimum := ⟨2, 0, 0, 0⟩ } }] ∧
    Asks w1 { name := ["b", "x"], range := { minimum := ⟨2, 0, 0, 0⟩ } } ["b", "x"] "" "" :=
  ⟨s1.modules[3]'(by decide +kernel), List.getElem_mem _, by decide +kernel, ⟨s1.modules[3]'(by decide +kernel), List.getElem_mem _, rfl, by decide +kernel⟩,
    rfl, rfl, by decide, Or.inl ⟨rfl, rfl⟩, Or.inl ⟨rfl, rfl⟩, _, by with_unfolding_all rfl, Or.inl ⟨rfl, rfl⟩⟩

/-- C66_order, C66_only_needed, C66_right_one, C66_absent: what there is -/
example : s1.modules.map (·.name) = [["qbs"], ["b", "x"], ["lib"], ["c"], ["no"]] := by decide +kernel
example : s1.modules.map (·.present) = [true, true, true, true, false] := by decide +kernel
example : s1.modules.map (fun m => m.range.minimum) = [{}, ⟨2, 0, 0, 0⟩, {}, {}, {}] := by decide +kernel
example : s1.modules.map (·.loaders) = [[], [.module 1, .module 3], [.product], [.product], [.product]] := by decide +kernel

/-! ## Product types -/

def n2 : Now := { idle with ofType := fun t => if t = ["plugin"] then [1, 2] else [] }

/-- An application and two plugins, one of them is in another project -/
def w2 : World :=
  { prods := [{ name := "app", projects := [0] }, { name := "p1", projects := [1, 0] }, { name := "p2" }]
    self := 0, depends := [{ productTypes := some ["plugin"], limit := true }], module := files [] }

def s2 : St := exec w2 n2 100 (initial w2)

/-- C66_by_type -/
example : Success (fun now => 1 ∈ now.ofType ["plugin"]) w2 s2 :=
  ⟨exec_reach (show 1 ∈ n2.ofType ["plugin"] by decide) _ _ .initial, by decide +kernel, by decide +kernel⟩

example : s2.modules.map (fun m => (m.name, m.product)) = [(["qbs"], none), (["p1"], some 1)] := by decide +kernel

/-! ## Termination and success -/

def w3 : World :=
  { prods := [{ name := "app" }, { name := "lib", depends := [{ name := ["b"] }] }]
    self := 0, depends := [{ name := ["lib"] }, { name := ["b"] }], module := files [(["b"], {})] }

theorem module3 {n : Name} {r : Range} {f : ModFile} (h : w3.module n r = .file f) : f.depends = [] := by
  simp only [w3, files] at h
  split at h
  · cases h; rfl
  · by_cases hn : n = ["b"]
    · subst hn; simp at h; subst h; rfl
    · rw [show List.lookup n [(["b"], ({} : ModFile))] = none by simp [List.lookup, beq_eq_false_iff_ne.mpr hn]] at h
      cases h

def names3 : List Name := [["qbs"], ["lib"], ["b"]]

theorem within3 {d : Dep} (h1 : d.productTypes = none) (h2 : d.submodules = none) (h3 : d.name ∈ names3) : Within names3 d := by
  refine ⟨h1, fun n hn => ?_⟩
  rcases hn with ⟨_, rfl⟩ | ⟨subs, h, _⟩
  · exact h3
  · rw [h2] at h; cases h

theorem bounded3 : Bounded w3 names3 where
  base := by decide
  product := by
    intro d hd
    simp only [w3, List.mem_cons, List.not_mem_nil, or_false] at hd
    rcases hd with rfl | rfl <;> exact within3 rfl rfl (by decide)
  exports := by
    intro q hq d hd
    simp only [w3, List.mem_cons, List.not_mem_nil, or_false] at hq
    rcases hq with rfl | rfl
    · cases hd
    · simp only [List.mem_cons, List.not_mem_nil, or_false] at hd
      subst hd; exact within3 rfl rfl (by decide)
  files := by
    intro n _ r f h d hd
    rw [module3 h] at hd
    cases hd

/-- C66_succeeds: the hypotheses are met -/
theorem sane3 : Sane w3 names3 (fun p => p) (fun _ => 0) where
  self := rfl
  bounded := bounded3
  base := ⟨by decide, {}, rfl⟩
  prefixFree := by decide
  items := by
    intro d hd
    have hcase : d = { name := ["lib"] } ∨ d = { name := ["b"] } := by
      rcases hd with hd | ⟨q, hq, hd⟩ | ⟨n, _, r, f, h, hd⟩
      · simpa [w3] using hd
      · simp only [w3, List.mem_cons, List.not_mem_nil, or_false] at hq
        rcases hq with rfl | rfl
        · cases hd
        · exact Or.inr (by simpa using hd)
      · rw [module3 h] at hd; cases hd
    rcases hcase with rfl | rfl
    · have ha : adjust w3 { name := ["lib"] } = .ok { name := ["lib"] } := by with_unfolding_all rfl
      refine ⟨by decide, ⟨_, ha⟩, fun n pr i h => ?_⟩
      obtain ⟨rfl, rfl, rfl⟩ := asks_plain ha rfl rfl rfl h
      refine Or.inl ⟨⟨{ name := "lib", depends := [{ name := ["b"] }] }, by decide, by with_unfolding_all rfl, rfl, Or.inl rfl, fun h => by cases h⟩, ?_⟩
      intro p q hp hm
      have h0 : q.name = "lib" := hm.1
      match p, hp with
      | 0, hp => simp only [prodAt, w3, List.getElem?_cons_zero, Option.some.injEq] at hp; subst hp; simp at h0
      | 1, hp => simp only [prodAt, w3, List.getElem?_cons_zero, List.getElem?_cons_succ, Option.some.injEq] at hp; subst hp; exact ⟨by decide, rfl⟩
      | _ + 2, hp => simp [prodAt, w3] at hp
    · have ha : adjust w3 { name := ["b"] } = .ok { name := ["b"] } := by with_unfolding_all rfl
      refine ⟨by decide, ⟨_, ha⟩, fun n pr i h => ?_⟩
      obtain ⟨rfl, rfl, rfl⟩ := asks_plain ha rfl rfl rfl h
      refine Or.inr ⟨fun q hq hm => ?_, rfl, rfl, {}, rfl⟩
      have h0 : q.name = "b" := hm.1
      simp only [w3, List.mem_cons, List.not_mem_nil, or_false] at hq
      rcases hq with rfl | rfl <;> simp at h0
  exports := by
    intro p q hp d hd
    match p, hp with
    | 0, hp => simp only [prodAt, w3, List.getElem?_cons_zero, Option.some.injEq] at hp; subst hp; cases hd
    | 1, hp =>
      simp only [prodAt, w3, List.getElem?_cons_zero, List.getElem?_cons_succ, Option.some.injEq] at hp; subst hp
      simp only [List.mem_cons, List.not_mem_nil, or_false] at hd
      subst hd
      have ha : adjust w3 { name := ["b"] } = .ok { name := ["b"] } := by with_unfolding_all rfl
      intro n pr i p h hf hp
      obtain ⟨rfl, rfl, rfl⟩ := asks_plain ha rfl rfl rfl h
      cases p with
      | none => decide
      | some j =>
        obtain ⟨q, h1, h2⟩ := hp j rfl
        have h0 : q.name = "b" := h2
        match j, h1 with
        | 0, h1 => simp only [prodAt, w3, List.getElem?_cons_zero, Option.some.injEq] at h1; subst h1; simp at h0
        | 1, h1 => simp only [prodAt, w3, List.getElem?_cons_zero, List.getElem?_cons_succ, Option.some.injEq] at h1; subst h1; simp at h0
        | _ + 2, h1 => simp [prodAt, w3] at h1
    | _ + 2, hp => simp [prodAt, w3] at hp
  files := by
    intro n _ r f h d hd
    rw [module3 h] at hd
    cases hd

/-- The library is waited for all the time. -/
def waiting : Now := { queued := fun p => decide (p = 1), mayDefer := true, ofType := fun _ => [] }

def later (w : World) (now : Now) (s : St) : St :=
  match step w now s with
  | .next s' => s'
  | .deferred s' => s'
  | _ => s

def run3 : Nat → St
  | 0 => initial w3
  | k + 1 => later w3 waiting (run3 k)

theorem run3_end : step w3 waiting (run3 4) = .deferred (run3 4) := by decide +kernel

theorem run3_const : ∀ k, run3 (4 + k) = run3 4
  | 0 => rfl
  | k + 1 => by
    rw [show 4 + (k + 1) = (4 + k) + 1 from rfl, run3, run3_const k, later, run3_end]

/-- C66_ends: a run that does not end -/
theorem run_3 : Run w3 (fun _ => waiting) run3 := by
  refine ⟨rfl, fun k => ?_⟩
  match k with
  | 0 => exact Or.inl (by decide +kernel)
  | 1 => exact Or.inl (by decide +kernel)
  | 2 => exact Or.inl (by decide +kernel)
  | 3 => exact Or.inr (by decide +kernel)
  | k + 4 =>
    refine Or.inr ?_
    rw [show k + 4 = 4 + k by omega, show 4 + k + 1 = 4 + (k + 1) by omega, run3_const, run3_const]
    exact run3_end

/-! ## Cycles -/

def w4 : World :=
  { prods := [{ name := "app" }], self := 0, depends := [{ name := ["a"] }]
    module := files [(["a"], { depends := [{ name := ["b"] }] }), (["b"], { depends := [{ name := ["a"] }] })] }

/-- C66_cycle_real: a cycle is found. -/
example : ∃ k s', step w4 idle (exec w4 idle k (initial w4)) = .next s' ∧ (exec w4 idle k (initial w4)).errors = [] ∧
    s'.errors = [.cyclic [.module 2, .module 1]] :=
  ⟨11, later w4 idle (exec w4 idle 11 (initial w4)), by decide +kernel, by decide +kernel, by decide +kernel⟩

/-! ## Findings -/

/-- All products and modules that are needed are there: what one would expect of `C66_fulfilled` -/
def Complete (w : World) (s : St) : Prop :=
  ∀ l ds, DependsOf w s.modules l ds → ∀ d ∈ ds, ∀ n profile variant, Asks w d n profile variant → d.required = true →
    (∀ m ∈ s.modules, l = .module m.id → m.required = true ∧ m.present = true) → ∃ m ∈ s.modules, m.name = n ∧ m.present = true

def f1 (depends : List Dep) : World := { prods := [{ name := "app" }], self := 0, depends := depends, module := files [] }

/-- **C66 finding.** If a module does not exist, and it is first asked for as not required, then no `Depends` item for which it is
required makes a difference: there is no error. With the items in the opposite order, there is one. -/
theorem C66_missing_unnoticed :
    (∃ s, Success Any (f1 [{ name := ["z"], required := false }, { name := ["z"] }]) s ∧
      ¬ Complete (f1 [{ name := ["z"], required := false }, { name := ["z"] }]) s) ∧
    (exec (f1 [{ name := ["z"] }, { name := ["z"], required := false }]) idle 100 (initial (f1 [{ name := ["z"] }, { name := ["z"], required := false }]))).errors =
      [.notFound ["z"]] := by
  refine ⟨⟨exec (f1 [{ name := ["z"], required := false }, { name := ["z"] }]) idle 100 (initial _),
    ⟨exec_reach trivial _ _ .initial, by decide +kernel, by decide +kernel⟩, fun h => ?_⟩, by decide +kernel⟩
  obtain ⟨m, hm, h1, h2⟩ := h .product _ rfl { name := ["z"] } (by decide) ["z"] "" ""
    ⟨rfl, rfl, by decide, Or.inl ⟨rfl, rfl⟩, Or.inl ⟨rfl, rfl⟩, _, by with_unfolding_all rfl, Or.inl ⟨rfl, rfl⟩⟩ rfl (by intro _ _ h; cases h)
  revert m
  decide +kernel

def f2 : World :=
  { prods := [{ name := "app" }, { name := "lib", disabled := true }], self := 0, depends := [{ name := ["m"], required := false }, { name := ["m"] }]
    module := files [(["m"], { depends := [{ name := ["lib"] }] })] }

/-- **C66 finding.** If a module is first asked for as not required, then a product that it requires may be disabled, and the
module is used without it, also if it is required by a later item. -/
theorem C66_disabled_unnoticed : ∃ s, Success Any f2 s ∧ ¬ Complete f2 s := by
  refine ⟨exec f2 idle 100 (initial f2), ⟨exec_reach trivial _ _ .initial, by decide +kernel, by decide +kernel⟩, fun h => ?_⟩
  obtain ⟨m, hm, h1, h2⟩ := h (.module 1) [{ name := ["lib"] }] ⟨(exec f2 idle 100 (initial f2)).modules[1]'(by decide +kernel), List.getElem_mem _, by decide +kernel, by decide +kernel⟩
    { name := ["lib"] } (by decide) ["lib"] "" ""
    ⟨rfl, rfl, by decide, Or.inl ⟨rfl, rfl⟩, Or.inl ⟨rfl, rfl⟩, _, by with_unfolding_all rfl, Or.inl ⟨rfl, rfl⟩⟩ rfl
    (by decide +kernel)
  revert m
  decide +kernel

def f3 : World :=
  { prods := [{ name := "app" }, { name := "lib", profile := "p1", muxId := "a" }, { name := "lib", profile := "p2", muxId := "b" }], self := 0
    depends := [{ name := ["lib"], profiles := some ["p1", "p2"] }], module := files [] }

/-- **C66 finding.** A product cannot depend on the variants of another one for two profiles, because each profile is looked for
together with each variant. -/
theorem C66_two_profiles : (exec f3 idle 100 (initial f3)).errors = [.noProduct ["lib"], .noProduct ["lib"]] := by decide +kernel

def f4 : World :=
  { prods := [{ name := "app", muxId := "x", config := [("arch", "arm")] }, { name := "lib", muxId := "a", config := [("arch", "x86")] }]
    self := 0, depends := [{ name := ["lib"], enabled := false }], module := files [] }

/-- **C66 finding.** A `Depends` item whose condition is false makes the resolving fail if there is no matching variant. -/
theorem C66_false_condition : ∃ s, Reach Any f4 s ∧ step f4 idle s = .aborted (.noCandidates ["lib"]) :=
  ⟨exec f4 idle 100 (initial f4), exec_reach trivial _ _ .initial, by decide +kernel⟩

/-- These are the products of the type "t". -/
def types (l : List Nat) : Now := { idle with ofType := fun t => if t = ["t"] then l else [] }

def f5 : World :=
  { prods := [{ name := "app" }, { name := "lib", muxId := "a" }], self := 0, depends := [{ name := ["lib"] }, { productTypes := some ["t"] }]
    module := files [] }

/-- **C66 finding.** A variant of a product is loaded twice if there is a dependency on it by name and one by type. -/
theorem C66_loaded_twice : ∃ s, Success Any f5 s ∧ s.modules.map (fun m => (m.name, m.product)) = [(["qbs"], none), (["lib"], some 1), (["lib"], some 1)] :=
  ⟨exec f5 (types [1]) 100 (initial f5), ⟨exec_reach trivial _ _ .initial, by decide +kernel, by decide +kernel⟩, by decide +kernel⟩

def f6 : World :=
  { prods := [{ name := "app" }, { name := "lib" }, { name := "lib", muxId := "a" }], self := 0
    depends := [{ name := ["lib"] }, { productTypes := some ["t"] }], module := files [] }

/-- **C66 finding.** A dependency by type on a variant of a product is dropped without a message if there is one on the aggregator. -/
theorem C66_by_type_dropped : ∃ s, Success (fun now => 2 ∈ now.ofType ["t"]) f6 s ∧ ∀ m ∈ s.modules, m.product ≠ some 2 :=
  ⟨exec f6 (types [2]) 100 (initial f6), ⟨exec_reach (show 2 ∈ (types [2]).ofType ["t"] by decide) _ _ .initial, by decide +kernel, by decide +kernel⟩, by decide +kernel⟩

def f8 : World :=
  { prods := [{ name := "app" }, { name := "lib" }], self := 0, depends := [{ name := ["lib"] }, { name := ["m"] }]
    module := files [(["m"], { depends := [{ name := ["lib"] }, { productTypes := some ["t"] }] })] }

/-- **C66 finding.** A module that depends on a product by name and by type leads to an internal error, if the product that
uses the module depends on that product as well. -/
theorem C66_internal_error : (exec f8 (types [1]) 100 (initial f8)).errors = [.internal] := by decide +kernel

def f10 : World :=
  { prods := [{ name := "app" }, { name := "a.b" }], self := 0, depends := [{ name := ["a", "b"] }, { productTypes := some ["t"] }], module := files [] }

/-- **C66 finding.** A product with a dot in its name is loaded twice if there is a dependency on it by name and one by type. -/
theorem C66_dot_twice : ∃ s, Success Any f10 s ∧ s.modules.map (fun m => (m.name, m.product)) = [(["qbs"], none), (["a", "b"], some 1), (["a.b"], some 1)] :=
  ⟨exec f10 (types [1]) 100 (initial f10), ⟨exec_reach trivial _ _ .initial, by decide +kernel, by decide +kernel⟩, by decide +kernel⟩

def f11 : World :=
  { prods := [{ name := "app" }, { name := "a.b", muxId := "i" }], self := 0, depends := [{ name := ["a"], submodules := some [["b"]] }], module := files [] }

/-- **C66 finding.** If a product with variants is asked for by a submodule, it is not found. -/
theorem C66_submodule_variant : (exec f11 idle 100 (initial f11)).errors = [.notFound ["a", "b"]] ∧
    (exec { f11 with depends := [{ name := ["a", "b"] }] } idle 100 (initial { f11 with depends := [{ name := ["a", "b"] }] })).errors = [] := by decide +kernel

def f12 (depends : List Dep) : World := { prods := [{ name := "app" }], self := 0, depends := depends, module := files [(["m"], {})] }

/-- **C66 finding.** Whether a profile may be given in a dependency on a module depends on what has been loaded before. -/
theorem C66_profile_module :
    (exec (f12 [{ name := ["m"], profiles := some ["p"] }, { name := ["m"] }]) idle 100 (initial (f12 [{ name := ["m"], profiles := some ["p"] }, { name := ["m"] }]))).errors =
      [.noProduct ["m"]] ∧
    (exec (f12 [{ name := ["m"] }, { name := ["m"], profiles := some ["p"] }]) idle 100 (initial (f12 [{ name := ["m"] }, { name := ["m"], profiles := some ["p"] }]))).errors =
      [] := by decide +kernel

/-! ### No end -/

def f7 : World :=
  { prods := [{ name := "app" }, { name := "lib", muxId := "a", depends := [{ productTypes := some ["t"] }] }], self := 0
    depends := [{ name := ["lib"] }], module := files [] }

def bulk : Dep := { productTypes := some ["t"] }
def libDep : RDep := { name := ["lib"], product := some 1, checkProduct := false }

/-- The keys there are: the base module and the library, over and over again. -/
def Key7 (k : Name × Option Nat × Nat) : Prop := k = (["qbs"], none, 0) ∨ (k.1 = ["lib"] ∧ k.2.1 = some 1)

inductive Phase : Frame → Prop
  | a {l rg} : Phase { loading := l, requiredG := rg, items := [bulk], current := none, pending := [base] }
  | b {l rg} : Phase { loading := l, requiredG := rg, items := [bulk], current := none, pending := [] }
  | c {l rg} : Phase { loading := l, requiredG := rg, items := [], current := some bulk, pending := [] }
  | d {l rg} : Phase { loading := l, requiredG := rg, items := [], current := none, pending := [libDep] }

structure J (s : St) : Prop where
  front : ∃ f fs, s.stack = f :: fs ∧ Phase f
  loading : ∀ f ∈ s.stack, f.loading ≠ .module 0
  keys : ∀ m ∈ s.modules, Key7 m.key
  locals : ∀ m ∈ s.modules, ∀ x ∈ m.locals, Key7 x.key
  base : ∃ m ∈ s.modules, m.key = (["qbs"], none, 0)
  pos : 0 < s.nextId

theorem find_base {l : List (Name × Option Nat × Nat)} (h : ∀ k ∈ l, Key7 k) : findExisting f7 base l = .none ∨ findExisting f7 base l = .found 0 := by
  induction l with
  | nil => exact Or.inl rfl
  | cons k l ih =>
    obtain ⟨n, p, i⟩ := k
    rcases h _ List.mem_cons_self with h1 | ⟨h1, h2⟩
    · cases h1; exact Or.inr rfl
    · simp only at h1 h2; subst h1; subst h2
      have := ih (fun k hk => h k (List.mem_cons_of_mem _ hk))
      simpa [findExisting, base] using this

theorem find_base_some {l : List (Name × Option Nat × Nat)} (h : ∀ k ∈ l, Key7 k) (hb : (["qbs"], none, 0) ∈ l) : findExisting f7 base l = .found 0 := by
  rcases find_base h with h1 | h1
  · exfalso
    clear h
    induction l with
    | nil => cases hb
    | cons k l ih =>
      obtain ⟨n, p, i⟩ := k
      rcases List.mem_cons.mp hb with h2 | h2
      · cases h2; cases h1
      · refine ih h2 ?_
        unfold findExisting at h1
        split at h1
        · exact h1
        · split at h1
          · split at h1 <;> cases h1
          · split at h1
            · exact h1
            · split at h1
              · cases h1
              · exact h1
  · exact h1

theorem find_lib {l : List (Name × Option Nat × Nat)} (h : ∀ k ∈ l, Key7 k) : findExisting f7 libDep l = .none := by
  induction l with
  | nil => rfl
  | cons k l ih =>
    obtain ⟨n, p, i⟩ := k
    have := ih (fun k hk => h k (List.mem_cons_of_mem _ hk))
    rcases h _ List.mem_cons_self with h1 | ⟨h1, h2⟩
    · cases h1; simpa [findExisting, libDep] using this
    · simp only at h1 h2; subst h1; subst h2
      simpa [findExisting, libDep, prodAt, f7] using this

theorem no_collision {n : Name} (hn : n.length = 1) {ms : List Mod} (h : ∀ m ∈ ms, Key7 m.key) : collision n ms = none := by
  unfold collision
  rw [Option.map_eq_none_iff, List.find?_eq_none]
  intro m hm
  have : m.name.length = 1 := by
    rcases h m hm with h | h
    · rw [show m.name = ["qbs"] from congrArg Prod.fst h]; rfl
    · rw [show m.name = ["lib"] from h.1]; rfl
  simp [this, hn]

theorem locals_key {s : St} (h : J s) (l : Loader) : ∀ k ∈ (localsOf l s.modules).map Local.key, Key7 k := by
  intro k hk
  obtain ⟨x, hx, rfl⟩ := List.mem_map.mp hk
  cases l with
  | product => cases hx
  | module i =>
    simp only [localsOf] at hx
    cases hf : s.modules.find? (fun m => m.id = i) with
    | none => rw [hf] at hx; cases hx
    | some m => rw [hf] at hx; exact h.locals m (List.mem_of_find?_eq_some hf) x hx

theorem addLocal7 {s : St} (h : J s) (l : Loader) (d : RDep) (id : Nat) (p : Option Nat) (hd : Key7 (d.name, p, id))
    (hf : findExisting f7 d ((localsOf l s.modules).map Local.key) ≠ .clash) :
    ∃ s', addLocal f7 l d id p s = some s' ∧ s'.stack = s.stack ∧ J s' := by
  unfold addLocal
  cases l with
  | product => exact ⟨s, rfl, rfl, h⟩
  | module i =>
    dsimp only
    split
    · rename_i hc; exact absurd hc hf
    · exact ⟨s, rfl, rfl, h⟩
    · refine ⟨_, rfl, rfl, h.front, h.loading, ?_, ?_, ?_, h.pos⟩
      · intro m hm
        obtain ⟨m', hm', rfl⟩ := List.mem_map.mp hm
        split
        · exact h.keys m' hm'
        · exact h.keys m' hm'
      · intro m hm x hx
        obtain ⟨m', hm', rfl⟩ := List.mem_map.mp hm
        split at hx
        · rcases List.mem_append.mp hx with hx | hx
          · exact h.locals m' hm' x hx
          · simp only [List.mem_singleton] at hx
            subst hx; exact hd
        · exact h.locals m' hm' x hx
      · obtain ⟨m, hm, hk⟩ := h.base
        refine ⟨_, List.mem_map.mpr ⟨m, hm, rfl⟩, ?_⟩
        split <;> exact hk

theorem j_step {s : St} (h : J s) : ∃ s', step f7 (types [1]) s = .next s' ∧ J s' := by
  obtain ⟨f, fs, hs, hp⟩ := h.front
  cases hp with
  | a =>
    rename_i l rg
    have hfe : findExisting f7 base (s.modules.map Mod.key) = .found 0 := by
      refine find_base_some (fun k hk => ?_) ?_
      · obtain ⟨m, hm, rfl⟩ := List.mem_map.mp hk; exact h.keys m hm
      · obtain ⟨m, hm, hk⟩ := h.base
        rw [← hk]; exact List.mem_map_of_mem hm
    have hj : J { s with modules := modify 0 (fun m => addLoader base l (if m.name = ["qbs"] then m else updateMod base m)) s.modules } := by
      have hkey : ∀ m : Mod, (addLoader base l (if m.name = ["qbs"] then m else updateMod base m)).key = m.key ∧
          (addLoader base l (if m.name = ["qbs"] then m else updateMod base m)).locals = m.locals := by
        intro m
        unfold addLoader
        rw [if_pos (Or.inl (show base.name = ["qbs"] from rfl))]
        split <;> exact ⟨rfl, rfl⟩
      refine ⟨h.front, h.loading, ?_, ?_, ?_, h.pos⟩
      · intro m hm
        obtain ⟨m', hm', rfl⟩ := List.mem_map.mp hm
        split
        · rw [(hkey m').1]; exact h.keys m' hm'
        · exact h.keys m' hm'
      · intro m hm x hx
        obtain ⟨m', hm', rfl⟩ := List.mem_map.mp hm
        split at hx
        · rw [(hkey m').2] at hx; exact h.locals m' hm' x hx
        · exact h.locals m' hm' x hx
      · obtain ⟨m, hm, hk⟩ := h.base
        refine ⟨_, List.mem_map.mpr ⟨m, hm, rfl⟩, ?_⟩
        split
        · rw [(hkey m).1]; exact hk
        · exact hk
    obtain ⟨s', h1, h2, h3⟩ := addLocal7 hj l base 0 none (Or.inl rfl) (by
      rcases find_base (locals_key hj l) with h | h <;> rw [h] <;> simp)
    have hon : onStack (.module 0) s.stack = false := by
      unfold onStack
      rw [List.any_eq_false]
      intro g hg
      simpa using h.loading g hg
    refine ⟨{ s' with stack := { loading := l, requiredG := rg, items := [bulk], current := none, pending := [] } :: fs }, ?_, ?_⟩
    · unfold step
      rw [hs]
      dsimp only
      unfold load
      rw [hfe]
      dsimp only
      unfold loadExisting
      dsimp only
      rw [hon]
      simp only [Bool.false_eq_true, if_false]
      rw [no_collision (n := base.name) rfl (by exact hj.keys)]
      dsimp only
      rw [h1]
    · refine ⟨⟨_, _, rfl, .b⟩, ?_, h3.keys, h3.locals, h3.base, h3.pos⟩
      intro g hg
      rcases List.mem_cons.mp hg with rfl | hg
      · exact h.loading { loading := l, requiredG := rg, items := [bulk], current := none, pending := [base] } (by rw [hs]; exact List.mem_cons_self)
      · exact h.loading g (by rw [hs]; exact List.mem_cons_of_mem _ hg)
  | b =>
    rename_i l rg
    refine ⟨{ s with stack := { loading := l, requiredG := rg, items := [], current := some bulk, pending := [] } :: fs }, ?_, ?_⟩
    · unfold step
      rw [hs]
      rfl
    · refine ⟨⟨_, _, rfl, .c⟩, ?_, h.keys, h.locals, h.base, h.pos⟩
      intro g hg
      rcases List.mem_cons.mp hg with rfl | hg
      · exact h.loading { loading := l, requiredG := rg, items := [bulk], current := none, pending := [] } (by rw [hs]; exact List.mem_cons_self)
      · exact h.loading g (by rw [hs]; exact List.mem_cons_of_mem _ hg)
  | c =>
    rename_i l rg
    refine ⟨{ s with stack := { loading := l, requiredG := rg, items := [], current := none, pending := [libDep] } :: fs }, ?_, ?_⟩
    · unfold step
      rw [hs]
      have : expand f7 (types [1]) rg bulk = [libDep] := by cases rg <;> decide +kernel
      dsimp only
      rw [if_neg (by simp [types, idle]), this]
    · refine ⟨⟨_, _, rfl, .d⟩, ?_, h.keys, h.locals, h.base, h.pos⟩
      intro g hg
      rcases List.mem_cons.mp hg with rfl | hg
      · exact h.loading { loading := l, requiredG := rg, items := [], current := some bulk, pending := [] } (by rw [hs]; exact List.mem_cons_self)
      · exact h.loading g (by rw [hs]; exact List.mem_cons_of_mem _ hg)
  | d =>
    rename_i l rg
    have hfe : findExisting f7 libDep (s.modules.map Mod.key) = .none := by
      refine find_lib (fun k hk => ?_)
      obtain ⟨m, hm, rfl⟩ := List.mem_map.mp hk; exact h.keys m hm
    have hnew : ∀ m : Mod, m.key = (["lib"], some 1, s.nextId) → m.locals = [] → J { s with modules := s.modules ++ [m], nextId := s.nextId + 1 } := by
      intro m hm hl
      refine ⟨h.front, h.loading, ?_, ?_, ?_, Nat.succ_pos _⟩
      · intro x hx
        rcases List.mem_append.mp hx with hx | hx
        · exact h.keys x hx
        · simp only [List.mem_singleton] at hx
          subst hx; rw [hm]; exact Or.inr ⟨rfl, rfl⟩
      · intro x hx y hy
        rcases List.mem_append.mp hx with hx | hx
        · exact h.locals x hx y hy
        · simp only [List.mem_singleton] at hx
          subst hx; rw [hl] at hy; cases hy
      · obtain ⟨x, hx, hk⟩ := h.base
        exact ⟨x, List.mem_append.mpr (Or.inl hx), hk⟩
    have hkey : ∀ m : Mod, (addLoader libDep l m).key = m.key ∧ (addLoader libDep l m).locals = m.locals := by
      intro m; unfold addLoader; split <;> exact ⟨rfl, rfl⟩
    have hj := hnew (addLoader libDep l { id := s.nextId, name := ["lib"], product := some 1, depends := [bulk], present := true, required := true, range := {}, loaders := [], locals := [] })
      (hkey _).1 (hkey _).2
    obtain ⟨s', h1, h2, h3⟩ := addLocal7 hj l libDep s.nextId (some 1) (Or.inr ⟨rfl, rfl⟩) (by rw [find_lib (locals_key hj l)]; simp)
    refine ⟨{ s' with stack := { loading := .module s.nextId, requiredG := true, items := [bulk], current := none, pending := [base] } ::
      { loading := l, requiredG := rg, items := [], current := none, pending := [] } :: fs }, ?_, ?_⟩
    · have hl : load f7 (types [1]) l libDep s = .use s.nextId [bulk] s' := by
        unfold load
        rw [hfe]
        show loadProduct f7 (types [1]) l libDep 1 s = _
        unfold loadProduct
        rw [show checkProd f7 (types [1]) libDep 1 = .use from rfl]
        dsimp only
        rw [if_neg (by decide)]
        unfold addNew
        rw [no_collision (by rfl) h.keys]
        dsimp only
        rw [show ((Option.map (fun x => x.depends) (prodAt f7 1)).getD []) = [bulk] from rfl]
        have h1' : addLocal f7 l libDep s.nextId (some 1) { s with modules := s.modules ++ [addLoader libDep l { id := s.nextId, name := libDep.name, product := some 1, depends := [bulk], present := true, required := libDep.requiredG, range := libDep.range, loaders := [], locals := [] }], nextId := s.nextId + 1 } = some s' := h1
        rw [h1']
      unfold step
      rw [hs]
      dsimp only
      rw [hl]
      rfl
    · refine ⟨⟨_, _, rfl, .a⟩, ?_, h3.keys, h3.locals, h3.base, h3.pos⟩
      intro g hg
      rcases List.mem_cons.mp hg with rfl | hg
      · have := h.pos
        simp only [ne_eq, Loader.module.injEq]; omega
      · rcases List.mem_cons.mp hg with rfl | hg
        · exact h.loading { loading := l, requiredG := rg, items := [], current := none, pending := [libDep] } (by rw [hs]; exact List.mem_cons_self)
        · exact h.loading g (by rw [hs]; exact List.mem_cons_of_mem _ hg)

def run7 : Nat → St
  | 0 => initial f7
  | k + 1 => later f7 (types [1]) (run7 k)

theorem run7_j : ∀ k, J (run7 (4 + k))
  | 0 => by
    refine ⟨⟨(run7 4).stack.head (by decide +kernel), (run7 4).stack.tail, by simp, ?_⟩, by decide +kernel, ?_, ?_, by decide +kernel, by decide +kernel⟩
    · rw [show (run7 4).stack.head (by decide +kernel) = { loading := .module 1, requiredG := true, items := [bulk], current := none, pending := [base] } by decide +kernel]
      exact .a
    · unfold Key7; decide +kernel
    · unfold Key7; decide +kernel
  | k + 1 => by
    obtain ⟨s', h1, h2⟩ := j_step (run7_j k)
    rw [show 4 + (k + 1) = (4 + k) + 1 from rfl, run7, later, h1]
    exact h2

/-- **C66 finding.** If a product exports a dependency on all products of a type, and a variant of it is of this type itself, then
resolving the dependencies of what uses it does not end. -/
theorem C66_no_end : (types [1]).mayDefer = false ∧ ∃ s, Run f7 (fun _ => types [1]) s := by
  refine ⟨rfl, run7, ⟨rfl, fun k => ?_⟩⟩
  match k with
  | 0 => exact Or.inl (by decide +kernel)
  | 1 => exact Or.inl (by decide +kernel)
  | 2 => exact Or.inl (by decide +kernel)
  | 3 => exact Or.inl (by decide +kernel)
  | k + 4 =>
    obtain ⟨s', h1, h2⟩ := j_step (run7_j k)
    rw [show k + 4 = 4 + k by omega]
    refine Or.inl ?_
    rw [run7, later, h1]

end Verif.Deps
