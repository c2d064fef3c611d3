import Verif.Api.LemData

namespace Verif.Api

variable {P : Type}

theorem trace_eq (w : World P) (es : List (Event P)) : trace w es = traceFrom w {} es := rfl

/-! ## C85: requests and replies -/

/-- **C85.** A client that keeps to the protocol gets exactly one reply of the documented type for
every request, in the order of the requests: at every moment, the replies so far, together with the
one for the job that is still running (if there is one), are the expected ones. -/
theorem C85_one_reply (w : World P) (es : List (Event P)) (hq : NoQuit es)
    (hp : Polite 0 (trace w es)) :
    (replies (trace w es)).map (·.kind) ++ ((running none (trace w es)).map (·.reply)).toList
      = expected es :=
  one_reply_from w es {} rfl rfl hq hp

/-- **C85.** Whatever the client does, there are never more replies of a type than there were
requests for them. -/
theorem C85_no_spurious_reply (w : World P) (es : List (Event P)) (k : Kind) :
    ((replies (trace w es)).map (·.kind)).count k ≤ (expected es).count k := by
  have := count_from w k es ({} : State P)
  simpa [due, jobKind, trace_eq] using this

/-- **C85.** The reply that the end of a job leads to is the one for the request that has started
it, and has an error if and only if the job was not successful. -/
theorem C85_job_reply (w : World P) (s : State P) (j : Job) (hj : s.job = some j)
    (hq : s.quitting = false) (hs : s.stored = none) (r : Result P) :
    ∃ rep, (step w s (.finished r)).2 = [.reply rep] ∧ rep.kind = j.kind.reply
      ∧ (rep.error.isSome ↔ ∃ p, r = .failed p) :=
  (finished_answered w hj hq hs r).1

/-- **C85.** While a job is running, every other request (except for resolving, releasing,
canceling and quitting) is answered at once with an error and changes nothing. -/
theorem C85_busy (w : World P) (s : State P) (hj : s.job.isSome) (hq : s.quitting = false) (r : Req)
    (k : Kind) (h : replyTo r = some k) (hr : r ≠ .release) (hr' : ∀ m, r ≠ .resolve m) :
    (step w s (.request r)).1 = s ∧ ∃ rep, (step w s (.request r)).2 = [.reply rep]
      ∧ rep.kind = k ∧ rep.error ≠ none ∧ rep.data = none := by
  obtain ⟨j, hj⟩ := Option.isSome_iff_exists.mp hj
  have hst : step w s (.request r) = request w s r := by simp [step, hq]
  rw [hst]
  exact busy_cases w hj h hr (fun m hm => absurd hm (hr' m))

/-- **C85.** Resolving while a job is running that is not a resolve job being canceled is an error
and changes nothing. -/
theorem C85_busy_resolve (w : World P) (s : State P) (j : Job) (hj : s.job = some j)
    (hq : s.quitting = false) (m : Mode) (h : j.kind ≠ .resolve ∨ j.canceling = false) :
    step w s (.request (.resolve m)) = (s, [.reply { kind := .resolved, error := some .busy }]) := by
  have hst : step w s (.request (.resolve m)) = request w s (.resolve m) := by simp [step, hq]
  rw [hst]
  simp only [request, setupProject, hj]
  rw [if_neg]
  · rfl
  · rintro ⟨h1, h2⟩
    rcases h with h | h
    · exact h h1
    · rw [h] at h2; cases h2

/-- **C85.** All requests but resolving, canceling and quitting need an open project: without one,
they are answered with an error and change nothing. -/
theorem C85_needs_project (w : World P) (s : State P) (hp : s.project = none)
    (hq : s.quitting = false) (r : Req) (k : Kind) (h : replyTo r = some k)
    (hr : ∀ m, r ≠ .resolve m) :
    (step w s (.request r)).1 = s ∧ ∃ rep, (step w s (.request r)).2 = [.reply rep]
      ∧ rep.kind = k ∧ rep.error ≠ none ∧ rep.data = none := by
  have hst : step w s (.request r) = request w s r := by simp [step, hq]
  rw [hst]
  have hpre : ∃ e, prerequisites s = some e := by
    unfold prerequisites
    by_cases hj : s.job.isSome = true
    · exact ⟨.busy, if_pos hj⟩
    · rw [if_neg hj]; exact ⟨.noProject, by simp [hp]⟩
  have hprep : ∀ a b, prepare s a b = some .noProject := by
    intro a b; unfold prepare; simp [hp]
  obtain ⟨e, he⟩ := hpre
  cases r with
  | resolve m => exact absurd rfl (hr m)
  | build sel m => cases h; simp only [request, startJob, he, true_and]; exact ⟨_, rfl, rfl, nofun, rfl⟩
  | clean sel => cases h; simp only [request, startJob, he, true_and]; exact ⟨_, rfl, rfl, nofun, rfl⟩
  | install sel => cases h; simp only [request, startJob, he, true_and]; exact ⟨_, rfl, rfl, nofun, rfl⟩
  | addFiles a b fs =>
    cases h; simp only [request, editFiles, hprep a b, true_and]; exact ⟨_, rfl, rfl, nofun, rfl⟩
  | removeFiles a b fs =>
    cases h; simp only [request, editFiles, hprep a b, true_and]; exact ⟨_, rfl, rfl, nofun, rfl⟩
  | renameFiles a b fs =>
    cases h; simp only [request, renameFiles, hprep a b, true_and]; exact ⟨_, rfl, rfl, nofun, rfl⟩
  | addDependencies a b ds =>
    cases h; simp only [request, addDependencies, hprep a b, true_and]
    exact ⟨_, rfl, rfl, nofun, rfl⟩
  | runEnvironment a =>
    cases h; simp only [request, runEnvironment, he, true_and]; exact ⟨_, rfl, rfl, nofun, rfl⟩
  | generatedFiles =>
    cases h; simp only [request, generatedFiles, he, true_and]; exact ⟨_, rfl, rfl, nofun, rfl⟩
  | release =>
    cases h
    simp only [request, releaseProject, hp]
    exact ⟨rfl, _, rfl, rfl, nofun, rfl⟩
  | quit => cases h
  | cancel => cases h
  | unknown => cases h; exact ⟨rfl, _, rfl, rfl, nofun, rfl⟩

/-- **C85.** Canceling when no job is running has no effect; when one is running, nothing is sent,
and the job goes on until it ends by itself. -/
theorem C85_cancel (w : World P) (s : State P) (hq : s.quitting = false) :
    (step w s (.request .cancel)).2 = []
      ∧ (step w s (.request .cancel)).1.job.map (·.kind) = s.job.map (·.kind)
      ∧ (s.job = none → (step w s (.request .cancel)).1 = s) := by
  have hst : step w s (.request .cancel) = cancelCurrent s := by simp [step, hq, request]
  rw [hst]
  refine ⟨(cancel_step s).1, (cancel_step s).2.1, ?_⟩
  intro hj
  simp [cancelCurrent, hj]

/-- **C85.** After `quit`, no reply is sent, whatever happens. -/
theorem C85_quit_silent (w : World P) (es es' : List (Event P)) :
    replies (trace w (es ++ .request .quit :: es')) = replies (trace w es) := by
  have hap : trace w (es ++ .request .quit :: es')
      = trace w es ++ traceFrom w (run w {} es).1 (.request .quit :: es') :=
    traceFrom_append w es (.request .quit :: es') {}
  have : replies (traceFrom w (run w {} es).1 (.request .quit :: es')) = [] := by
    generalize (run w {} es).1 = s
    rw [traceFrom_cons, replies_cons]
    by_cases hq : s.quitting = true
    · have hst : step w s (.request .quit) = (s, []) := by simp [step, hq]
      rw [hst, quit_silent w es' s hq]
      rfl
    · have hst : step w s (.request .quit) = quitSession s := by simp [step, hq, request]
      rw [hst]
      unfold quitSession
      cases s.job with
      | none => exact quit_silent w es' _ rfl
      | some j => exact quit_silent w es' _ rfl
  rw [hap]
  unfold replies at *
  rw [List.flatMap_append, this, List.append_nil]

/-- **C85.** `quit` ends the session: at once if no job is running, otherwise when the job, which is
canceled, has ended. -/
theorem C85_quit_closes (w : World P) (s : State P) (hq : s.quitting = false) (r : Result P) :
    (s.job = none → (step w s (.request .quit)).2 = [.closed])
      ∧ (s.job.isSome → (step w s (.request .quit)).2 = []
          ∧ (step w (step w s (.request .quit)).1 (.finished r)).2 = [.closed]) := by
  have hst : step w s (.request .quit) = quitSession s := by simp [step, hq, request]
  rw [hst]
  refine ⟨fun hj => by simp [quitSession, hj], fun hj => ?_⟩
  obtain ⟨j, hj⟩ := Option.isSome_iff_exists.mp hj
  refine ⟨by simp [quitSession, hj], ?_⟩
  simp [quitSession, hj, step, finished]

/-! ## C86: the products a request is about -/

/-- What a request that starts a job does when it may. -/
theorem start_of (w : World P) (s : State P) (hq : s.quitting = false) (hj : s.job = none)
    (hp : s.project.isSome) (r : Req) (k : Kind) (jk : JobKind) (m : Mode) (ps : List Product)
    (h : request w s r = startJob s k jk m ps) :
    (step w s (.request r)).2 = [.start jk ps] := by
  have hst : step w s (.request r) = request w s r := by simp [step, hq]
  have hpre : prerequisites s = none := by
    obtain ⟨p, hp⟩ := Option.isSome_iff_exists.mp hp
    simp [prerequisites, hj, hp]
  rw [hst, h]
  simp only [startJob, hpre]

theorem named_products {t : Tree} (hd : Distinct t) (l : List Name)
    (hk : ∃ p ∈ t.products, p.name ∈ l) :
    jobProducts t (getSelection t (.names l))
        = t.products.filter (fun p => p.enabled && decide (p.name ∈ l))
      ∧ cleanProducts t (getSelection t (.names l))
        = t.products.filter (fun p => p.enabled && decide (p.name ∈ l)) := by
  have h1 : productsByName t l = t.products.filter (fun p => decide (p.name ∈ l)) :=
    (pick_spec t l hd).1
  obtain ⟨p, hp, hpl⟩ := hk
  have h2 : productsByName t l ≠ [] := by
    rw [h1]
    intro h
    have := List.filter_eq_nil_iff.mp h p hp
    simp [hpl] at this
  have h3 : internalProducts (productsByName t l)
      = t.products.filter (fun p => p.enabled && decide (p.name ∈ l)) := by
    rw [h1, internalProducts, List.filter_filter]
  constructor
  · show (if productsByName t l = [] then _ else internalProducts (productsByName t l)) = _
    rw [if_neg h2, h3]
  · show (if productsByName t l = [] then _ else internalProducts (productsByName t l)) = _
    rw [if_neg h2, h3]

/-- **C86 (partial).** A build, clean or install request that names products is about exactly the
enabled ones of these, provided that at least one product of that name exists. Missing: when none
exists (`C86_unknown_products`). -/
theorem C86_named_products_partial (w : World P) (s : State P) (hq : s.quitting = false)
    (hj : s.job = none) (hp : s.project.isSome) (hd : Distinct s.data) (l : List Name)
    (hk : ∃ p ∈ s.data.products, p.name ∈ l) (m : Mode) :
    (step w s (.request (.build (.names l) m))).2
        = [.start .build (s.data.products.filter (fun p => p.enabled && decide (p.name ∈ l)))]
      ∧ (step w s (.request (.install (.names l)))).2
        = [.start .install (s.data.products.filter (fun p => p.enabled && decide (p.name ∈ l)))]
      ∧ (step w s (.request (.clean (.names l)))).2
        = [.start .clean (s.data.products.filter (fun p => p.enabled && decide (p.name ∈ l)))] := by
  obtain ⟨h1, h2⟩ := named_products hd l hk
  refine ⟨?_, ?_, ?_⟩
  · rw [start_of w s hq hj hp _ .built .build m _ rfl, h1]
  · rw [start_of w s hq hj hp _ .installDone .install .never _ rfl, h1]
  · rw [start_of w s hq hj hp _ .cleaned .clean .never _ rfl, h2]

/-- **C86.** Without a product selection, the products that are built and installed are the enabled
ones that are built by default; with "all", all enabled ones. -/
theorem C86_default_products (w : World P) (s : State P) (hq : s.quitting = false)
    (hj : s.job = none) (hp : s.project.isSome) (m : Mode) :
    (step w s (.request (.build .absent m))).2
        = [.start .build (s.data.products.filter (fun p => p.enabled && p.byDefault))]
      ∧ (step w s (.request (.install .absent))).2
        = [.start .install (s.data.products.filter (fun p => p.enabled && p.byDefault))]
      ∧ (step w s (.request (.build .all m))).2
        = [.start .build (s.data.products.filter (·.enabled))]
      ∧ (step w s (.request (.install .all))).2
        = [.start .install (s.data.products.filter (·.enabled))] := by
  have hA : jobProducts s.data (getSelection s.data .absent)
      = s.data.products.filter (fun p => p.enabled && p.byDefault) := by
    show enabledProducts false s.data = _
    rw [enabledProducts_eq]; simp
  have hB : jobProducts s.data (getSelection s.data .all) = s.data.products.filter (·.enabled) := by
    show enabledProducts true s.data = _
    rw [enabledProducts_eq]; simp
  refine ⟨?_, ?_, ?_, ?_⟩
  · rw [start_of w s hq hj hp _ .built .build m _ rfl, hA]
  · rw [start_of w s hq hj hp _ .installDone .install .never _ rfl, hA]
  · rw [start_of w s hq hj hp _ .built .build m _ rfl, hB]
  · rw [start_of w s hq hj hp _ .installDone .install .never _ rfl, hB]

/-- **C86.** Without a product selection, all enabled products are cleaned. -/
theorem C86_clean_all (w : World P) (s : State P) (hq : s.quitting = false)
    (hj : s.job = none) (hp : s.project.isSome) :
    (step w s (.request (.clean .absent))).2
      = [.start .clean (s.data.products.filter (·.enabled))] := by
  rw [start_of w s hq hj hp _ .cleaned .clean .never _ rfl]
  show [Out.start .clean (enabledProducts true s.data)] = _
  rw [enabledProducts_eq]; simp

/-- **C86.** A request about a single product is about the one of that name, if there is one. -/
theorem C86_single_product (t : Tree) (hd : Distinct t) (n : Name) (p : Product) :
    productByName t n = some p ↔ p ∈ t.products ∧ p.name = n := by
  have h1 : productsByName t [n] = t.products.filter (fun p => decide (p.name ∈ [n])) :=
    (pick_spec t [n] hd).1
  unfold productByName
  rw [h1]
  have hnd : ((t.products.filter (fun p => decide (p.name ∈ [n]))).map (·.name)).Nodup :=
    List.Nodup.sublist (List.Sublist.map _ List.filter_sublist) hd
  have hmem : ∀ q, q ∈ t.products.filter (fun p => decide (p.name ∈ [n]))
      ↔ q ∈ t.products ∧ q.name = n := by
    intro q; simp
  cases hl : t.products.filter (fun p => decide (p.name ∈ [n])) with
  | nil =>
    rw [hl] at hmem
    simp only [List.head?_nil]
    constructor
    · nofun
    · intro h; exact absurd ((hmem p).mpr h) (by simp)
  | cons a l =>
    rw [hl] at hmem hnd
    simp only [List.head?_cons, Option.some.injEq]
    constructor
    · rintro rfl; exact (hmem a).mp List.mem_cons_self
    · intro h
      rcases List.mem_cons.mp ((hmem p).mpr h) with h' | h'
      · exact h'.symm
      · rw [List.map_cons, List.nodup_cons] at hnd
        have ha := ((hmem a).mp List.mem_cons_self).2
        exact absurd (by rw [ha, ← h.2]; exact List.mem_map_of_mem h') hnd.1

/-- **C86 finding.** Products that do not exist: a build or install request that names only such
products (or none at all) builds and installs the default ones, and a clean request cleans the whole
project. No reply says so. -/
theorem C86_unknown_products (w : World P) (s : State P) (hq : s.quitting = false)
    (hj : s.job = none) (hp : s.project.isSome) (hd : Distinct s.data) (l : List Name)
    (hk : ∀ p ∈ s.data.products, p.name ∉ l) (m : Mode) :
    (step w s (.request (.build (.names l) m))).2
        = [.start .build (s.data.products.filter (fun p => p.enabled && p.byDefault))]
      ∧ (step w s (.request (.install (.names l)))).2
        = [.start .install (s.data.products.filter (fun p => p.enabled && p.byDefault))]
      ∧ (step w s (.request (.clean (.names l)))).2
        = [.start .clean (s.data.products.filter (·.enabled))] := by
  have h1 : productsByName s.data l = [] := by
    rw [show productsByName s.data l = _ from (pick_spec s.data l hd).1, List.filter_eq_nil_iff]
    intro p hp; simpa using hk p hp
  have hA : jobProducts s.data (getSelection s.data (.names l))
      = s.data.products.filter (fun p => p.enabled && p.byDefault) := by
    show (if productsByName s.data l = [] then enabledProducts false s.data else _) = _
    rw [if_pos h1, enabledProducts_eq]; simp
  have hB : cleanProducts s.data (getSelection s.data (.names l))
      = s.data.products.filter (·.enabled) := by
    show (if productsByName s.data l = [] then enabledProducts true s.data else _) = _
    rw [if_pos h1, enabledProducts_eq]; simp
  refine ⟨?_, ?_, ?_⟩
  · rw [start_of w s hq hj hp _ .built .build m _ rfl, hA]
  · rw [start_of w s hq hj hp _ .installDone .install .never _ rfl, hA]
  · rw [start_of w s hq hj hp _ .cleaned .clean .never _ rfl, hB]

/-! ## C87: project data and edits -/

/-- **C87 (partial).** A client that asks for the data whenever they have changed has the data of the
open project whenever no job is running. Missing: after a build that failed and after a rename that
failed (`C87_failed_build`, `C87_failed_rename`). -/
theorem C87_client_data_partial (w : World P) (es : List (Event P)) (hq : NoQuit es)
    (ha : AsksForData es)
    (hf : ∀ rep ∈ replies (trace w es), rep.error = some .operationFailed →
      rep.kind ≠ .built ∧ rep.kind ≠ .filesRenamed)
    (hj : (run w {} es).1.job = none) :
    clientCopy (trace w es) = dataOf w (run w {} es).1.project := by
  have h0 : DataInv w ({} : State P) := ⟨rfl, fun _ => rfl, nofun, nofun⟩
  obtain ⟨h1, h2⟩ := copy_from w es {} h0 ha hq (fun rep hrep hs =>
    hs.2.elim (fun h => (hf rep hrep hs.1).1 h) (fun h => (hf rep hrep hs.1).2 h))
  have h3 := h2.data (by simp [jobKind, hj])
  rw [← h3, ← h1]
  rfl

/-- **C87.** The data come with the reply of a successful resolve or build request exactly as its
data mode says, compared with the data before it. -/
theorem C87_data_mode (w : World P) (s : State P) (j : Job) (hj : s.job = some j)
    (hq : s.quitting = false) (hs : s.stored = none) (p : P)
    (hk : j.kind = .resolve ∨ j.kind = .build) :
    ∃ rep, (step w s (.finished (.ok p))).2 = [.reply rep]
      ∧ (rep.data = some (w.data p)
          ↔ j.mode = .always ∨ (j.mode = .onlyIfChanged ∧ w.data p ≠ s.data))
      ∧ (rep.data = none
          ↔ j.mode = .never ∨ (j.mode = .onlyIfChanged ∧ w.data p = s.data)) := by
  have hat : ∀ m : Mode, (attach m s.data (w.data p) = some (w.data p)
        ↔ m = .always ∨ (m = .onlyIfChanged ∧ w.data p ≠ s.data))
      ∧ (attach m s.data (w.data p) = none
        ↔ m = .never ∨ (m = .onlyIfChanged ∧ w.data p = s.data)) := by
    intro m
    cases m with
    | never => simp [attach]
    | always => simp [attach]
    | onlyIfChanged => by_cases h : w.data p = s.data <;> simp [attach, h]
  rcases hk with hk | hk
  · refine ⟨{ kind := .resolved, data := attach j.mode s.data (w.data p) }, ?_, hat j.mode⟩
    simp only [step, finished, hj, hq, hk, resolveFinished, hs]
    rfl
  · refine ⟨{ kind := .built, data := attach j.mode s.data (w.data p) }, ?_, hat j.mode⟩
    simp only [step, finished, hj, hq, hk, buildFinished]
    rfl

theorem editLoop_failed (f : P → Name → Option P) (fs : List Name) :
    ∀ p, (editLoop f p fs).2 = failedEdits f p fs := by
  induction fs with
  | nil => intro p; rfl
  | cons x xs ih =>
    intro p
    have hrange : failedEdits f p (x :: xs)
        = (if (f p x).isNone then [x] else []) ++ failedEdits f ((f p x).getD p) xs := by
      unfold failedEdits
      rw [List.length_cons, List.range_succ_eq_map, List.filterMap_cons, List.filterMap_map]
      have hcong : ((fun i => ((x :: xs)[i]?).filter fun y =>
            (f (editsDone f p (List.take i (x :: xs))) y).isNone) ∘ Nat.succ)
          = fun i => (xs[i]?).filter fun y =>
            (f (editsDone f ((f p x).getD p) (List.take i xs)) y).isNone := rfl
      rw [hcong]
      have h0 : ((x :: xs)[0]?).filter (fun y => (f (editsDone f p (List.take 0 (x :: xs))) y).isNone)
          = if (f p x).isNone then some x else none := rfl
      rw [h0]
      by_cases hn : (f p x).isNone = true
      · rw [if_pos hn, if_pos hn]; rfl
      · rw [if_neg hn, if_neg hn]; rfl
    rw [hrange]
    unfold editLoop
    cases hf : f p x with
    | none => simp [ih]
    | some p' => simp [ih]

/-- The reply and the new project of a request that edits files. -/
theorem edit_files (w : World P) (s : State P) (p : P) (hp : s.project = some p) (k : Kind)
    (f : P → Name → Name → Name → Option P) (a b : Name) (fs : List Name)
    (hpr : prepare s a b = none) :
    ∃ rep, (editFiles w s k f a b fs).2 = [.reply rep]
      ∧ (editFiles w s k f a b fs).1.project = some (editsDone (fun q x => f q a b x) p fs)
      ∧ rep.failed = failedEdits (fun q x => f q a b x) p fs
      ∧ (rep.error.isSome ↔ rep.failed ≠ [])
      ∧ (rep.data = if rep.failed.length = fs.length then none
          else some (w.data (editsDone (fun q x => f q a b x) p fs))) := by
  unfold editFiles
  rw [hpr, hp]
  refine ⟨_, rfl, ?_, ?_, ?_, ?_⟩
  · show some (editLoop _ p fs).1 = _
    rw [editLoop_fst]
  · exact editLoop_failed _ fs p
  · show ((if (editLoop (fun q x => f q a b x) p fs).2 = [] then none
        else some Reason.operationFailed).isSome = true) ↔ (editLoop (fun q x => f q a b x) p fs).2 ≠ []
    by_cases h : (editLoop (fun q x => f q a b x) p fs).2 = []
    · simp [h]
    · simp [h]
  · show (if (editLoop (fun q x => f q a b x) p fs).2.length ≠ fs.length
        then some (w.data (editLoop (fun q x => f q a b x) p fs).1) else none)
      = if (editLoop (fun q x => f q a b x) p fs).2.length = fs.length then none else _
    by_cases h : (editLoop (fun q x => f q a b x) p fs).2.length = fs.length
    · rw [if_neg (not_not_intro h), if_pos h]
    · rw [if_pos h, if_neg h, editLoop_fst]

/-- When an edit request may be carried out. -/
theorem prepare_iff (s : State P) (hd : Distinct s.data) (a b : Name) :
    prepare s a b = none ↔ s.project.isSome ∧ s.job = none
      ∧ ∃ pr ∈ s.data.products, pr.name = a ∧ b ∈ pr.groups := by
  unfold prepare
  by_cases h1 : s.project.isNone = true
  · rw [if_pos h1]; simp_all
  · rw [if_neg h1]
    by_cases h2 : s.job.isSome = true
    · rw [if_pos h2]
      constructor
      · nofun
      · rintro ⟨_, h, _⟩; rw [h] at h2; cases h2
    · rw [if_neg h2]
      have hp : s.project.isSome = true := by
        cases h : s.project with
        | none => rw [h] at h1; simp at h1
        | some p => rfl
      have hj : s.job = none := by simpa using h2
      cases hf : productByName s.data a with
      | none =>
        simp only [hp, hj, true_and]
        constructor
        · nofun
        · rintro ⟨pr, hm, hn, _⟩
          rw [(C86_single_product s.data hd a pr).mpr ⟨hm, hn⟩] at hf
          cases hf
      | some pr =>
        obtain ⟨hm, hn⟩ := (C86_single_product s.data hd a pr).mp hf
        simp only [hp, hj, true_and]
        by_cases hg : b ∈ pr.groups
        · simp only [hg, if_true, true_iff]
          exact ⟨pr, hm, hn, hg⟩
        · simp only [hg, if_false]
          constructor
          · nofun
          · rintro ⟨q, hq, hqn, hqg⟩
            have := (C86_single_product s.data hd a q).mpr ⟨hq, hqn⟩
            rw [hf] at this
            cases this
            exact absurd hqg hg

/-- **C87.** Adding files: every file that can be added is added, one after the other; the reply
lists exactly those that cannot, has an error if and only if there are some, and brings the new data
if at least one was added. -/
theorem C87_add_files (w : World P) (s : State P) (p : P) (hp : s.project = some p)
    (hj : s.job = none) (hq : s.quitting = false) (hd : Distinct s.data) (a b : Name)
    (hpr : ∃ pr ∈ s.data.products, pr.name = a ∧ b ∈ pr.groups) (fs : List Name) :
    ∃ rep, (step w s (.request (.addFiles a b fs))).2 = [.reply rep]
      ∧ (step w s (.request (.addFiles a b fs))).1.project
          = some (editsDone (fun q x => w.add q a b x) p fs)
      ∧ rep.failed = failedEdits (fun q x => w.add q a b x) p fs
      ∧ (rep.error.isSome ↔ rep.failed ≠ [])
      ∧ (rep.data = if rep.failed.length = fs.length then none
          else some (w.data (editsDone (fun q x => w.add q a b x) p fs))) := by
  have hst : step w s (.request (.addFiles a b fs)) = editFiles w s .filesAdded w.add a b fs := by
    simp [step, hq, request]
  rw [hst]
  exact edit_files w s p hp _ _ a b fs ((prepare_iff s hd a b).mpr ⟨by simp [hp], hj, hpr⟩)

/-- **C87.** Removing files: the same. -/
theorem C87_remove_files (w : World P) (s : State P) (p : P) (hp : s.project = some p)
    (hj : s.job = none) (hq : s.quitting = false) (hd : Distinct s.data) (a b : Name)
    (hpr : ∃ pr ∈ s.data.products, pr.name = a ∧ b ∈ pr.groups) (fs : List Name) :
    ∃ rep, (step w s (.request (.removeFiles a b fs))).2 = [.reply rep]
      ∧ (step w s (.request (.removeFiles a b fs))).1.project
          = some (editsDone (fun q x => w.remove q a b x) p fs)
      ∧ rep.failed = failedEdits (fun q x => w.remove q a b x) p fs
      ∧ (rep.error.isSome ↔ rep.failed ≠ [])
      ∧ (rep.data = if rep.failed.length = fs.length then none
          else some (w.data (editsDone (fun q x => w.remove q a b x) p fs))) := by
  have hst : step w s (.request (.removeFiles a b fs))
      = editFiles w s .filesRemoved w.remove a b fs := by simp [step, hq, request]
  rw [hst]
  exact edit_files w s p hp _ _ a b fs ((prepare_iff s hd a b).mpr ⟨by simp [hp], hj, hpr⟩)

/-- **C87.** An edit request for a product or a group that does not exist is an error, changes
nothing, and (for files) all files are listed as failed. -/
theorem C87_no_such_group (w : World P) (s : State P) (hq : s.quitting = false) (hd : Distinct s.data)
    (a b : Name) (hpr : ¬ ∃ pr ∈ s.data.products, pr.name = a ∧ b ∈ pr.groups) (fs : List Name)
    (ren : List (Name × Name)) (deps : List Name) :
    (∃ e, step w s (.request (.addFiles a b fs))
        = (s, [.reply { kind := .filesAdded, error := some e, failed := fs }]))
      ∧ (∃ e, step w s (.request (.removeFiles a b fs))
        = (s, [.reply { kind := .filesRemoved, error := some e, failed := fs }]))
      ∧ (∃ e, step w s (.request (.renameFiles a b ren))
        = (s, [.reply { kind := .filesRenamed, error := some e, failed := ren.map (·.1) }]))
      ∧ (∃ e, step w s (.request (.addDependencies a b deps))
        = (s, [.reply { kind := .dependenciesAdded, error := some e }])) := by
  cases hf : prepare s a b with
  | none => exact absurd ((prepare_iff s hd a b).mp hf).2.2 hpr
  | some e =>
    refine ⟨⟨e, ?_⟩, ⟨e, ?_⟩, ⟨e, ?_⟩, ⟨e, ?_⟩⟩
    · simp [step, hq, request, editFiles, hf]
    · simp [step, hq, request, editFiles, hf]
    · simp [step, hq, request, renameFiles, hf]
    · simp [step, hq, request, addDependencies, hf, errorReply]

/-- **C87 finding.** Adding dependencies that cannot be added is reported as a success: the reply
never has an error once the product and the group are found. -/
theorem C87_dependencies (w : World P) (s : State P) (p : P) (hp : s.project = some p)
    (hj : s.job = none) (hq : s.quitting = false) (hd : Distinct s.data) (a b : Name)
    (hpr : ∃ pr ∈ s.data.products, pr.name = a ∧ b ∈ pr.groups) (deps : List Name)
    (hfail : w.depend p a b deps = none) :
    (step w s (.request (.addDependencies a b deps))).1.project = some p
      ∧ (step w s (.request (.addDependencies a b deps))).2
        = [.reply { kind := .dependenciesAdded, error := none, data := some (w.data p) }] := by
  have hst : step w s (.request (.addDependencies a b deps)) = addDependencies w s a b deps := by
    simp [step, hq, request]
  have hprep := (prepare_iff s hd a b).mpr ⟨by simp [hp], hj, hpr⟩
  rw [hst]
  simp only [addDependencies, hprep, hp, dependResult, hfail, Option.getD_none]
  exact ⟨trivial, trivial⟩

end Verif.Api
