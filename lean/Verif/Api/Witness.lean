import Verif.Api.Props

namespace Verif.Api

variable {P : Type}

/-! ## Findings about histories -/

/-- **C85 finding.** A resolve request that is sent while a resolve job is being canceled takes the
place of the first one, which is never answered; and if that one is canceled, too, before the job
has ended, then only one of the two requests is ever answered. -/
theorem C85_superseded (w : World P) (m m' : Mode) (r r' : Result P) :
    (replies (trace w [.request (.resolve m), .request .cancel, .request (.resolve m'),
        .finished r, .finished r'])).map (·.kind) = [.resolved]
      ∧ running none (trace w [.request (.resolve m), .request .cancel, .request (.resolve m'),
        .finished r, .finished r']) = none
      ∧ (replies (trace w [.request (.resolve m), .request .cancel, .request (.resolve m'),
        .request .cancel, .finished r])).map (·.kind) = [.resolved]
      ∧ running none (trace w [.request (.resolve m), .request .cancel, .request (.resolve m'),
        .request .cancel, .finished r]) = none :=
  ⟨rfl, rfl, rfl, rfl⟩

/-- **C85 finding.** Releasing the project while it is being built: the release succeeds, and the
build request is never answered, whatever happens afterwards. -/
theorem C85_release_during_job (w : World P) (m m' : Mode) (p : P) (sel : Selection)
    (es : List (Event P)) (hes : ∀ sel m, Event.request (.build sel m) ∉ es) :
    (run w {} [.request (.resolve m), .finished (.ok p), .request (.build sel m'),
        .request .release]).2.getLast? = some [.reply { kind := .released }]
      ∧ ∀ rep ∈ replies (trace w ([.request (.resolve m), .finished (.ok p),
          .request (.build sel m'), .request .release] ++ es)), rep.kind ≠ .built := by
  refine ⟨rfl, ?_⟩
  intro rep hrep hk
  have hap := traceFrom_append w [.request (.resolve m), .finished (.ok p),
    .request (.build sel m'), .request .release] es {}
  rw [trace_eq, hap] at hrep
  unfold replies at hrep
  rw [List.flatMap_append, List.mem_append] at hrep
  rcases hrep with h | h
  · have h1 : List.flatMap (fun x : Event P × List Out => repliesIn x.2)
        (traceFrom w {} [.request (.resolve m), .finished (.ok p), .request (.build sel m'),
          .request .release]) = [{ kind := .resolved, data := attach m .stop (w.data p) },
          { kind := .released }] := rfl
    rw [h1] at h
    rcases List.mem_cons.mp h with h | h
    · rw [h] at hk; cases hk
    · rw [List.mem_singleton.mp h] at hk; cases hk
  · have hc := count_from w .built es (run w {} [.request (.resolve m), .finished (.ok p),
      .request (.build sel m'), .request .release]).1
    have hdue : due .built (run w {} [.request (.resolve m), .finished (.ok p),
      .request (.build sel m'), .request .release]).1 = 0 := rfl
    have hexp : (expected es).count .built = 0 := by
      clear hc hdue h hap
      rw [List.count_eq_zero]
      intro hm
      induction es with
      | nil => cases hm
      | cons e es ih =>
        have ih' := ih (fun sel m h => hes sel m (List.mem_cons_of_mem _ h))
        cases e with
        | finished r => exact ih' hm
        | request r =>
          rcases List.mem_append.mp hm with h | h
          · cases r <;> first | (simp [replyTo] at h; done) | skip
            exact hes _ _ List.mem_cons_self
          · exact ih' h
    have hpos : 0 < ((replies (traceFrom w (run w {} [.request (.resolve m), .finished (.ok p),
        .request (.build sel m'), .request .release]).1 es)).map (·.kind)).count .built :=
      List.count_pos_iff.mpr (hk ▸ List.mem_map_of_mem h)
    omega

/-- **C87 finding.** A build that fails after it has changed the project: the reply has no data, and
the next build, which changes nothing any more, has none either. A client that always asks for
changed data keeps the old ones. -/
theorem C87_failed_build (w : World P) (p p' : P) (sel sel' : Selection) :
    clientCopy (trace w [.request (.resolve .always), .finished (.ok p),
        .request (.build sel .onlyIfChanged), .finished (.failed (some p')),
        .request (.build sel' .onlyIfChanged), .finished (.ok p')]) = w.data p
      ∧ (run w {} [.request (.resolve .always), .finished (.ok p),
        .request (.build sel .onlyIfChanged), .finished (.failed (some p')),
        .request (.build sel' .onlyIfChanged), .finished (.ok p')]).1.project = some p' := by
  refine ⟨?_, rfl⟩
  have hat : attach .onlyIfChanged (w.data p') (w.data p') = none := by simp [attach]
  have : replies (trace w [.request (.resolve .always), .finished (.ok p),
        .request (.build sel .onlyIfChanged), .finished (.failed (some p')),
        .request (.build sel' .onlyIfChanged), .finished (.ok p')])
      = [{ kind := .resolved, data := some (w.data p) },
         { kind := .built, error := some .operationFailed },
         { kind := .built, data := attach .onlyIfChanged (w.data p') (w.data p') }] := rfl
  unfold clientCopy
  rw [this, hat]
  rfl

/-- **C87 finding.** Renaming a file whose new name cannot be added: the file is gone from the
project, and the client does not get the new data. -/
theorem C87_failed_rename (w : World P) (s : State P) (p p' : P) (hp : s.project = some p)
    (hj : s.job = none) (hq : s.quitting = false) (hd : Distinct s.data) (a b : Name)
    (hpr : ∃ pr ∈ s.data.products, pr.name = a ∧ b ∈ pr.groups) (old new : Name)
    (hr : w.remove p a b old = some p') (ha : w.add p' a b new = none) :
    (step w s (.request (.renameFiles a b [(old, new)]))).1.project = some p'
      ∧ (step w s (.request (.renameFiles a b [(old, new)]))).2
        = [.reply { kind := .filesRenamed, error := some .operationFailed, failed := [old] }] := by
  have hst : step w s (.request (.renameFiles a b [(old, new)])) = renameFiles w s a b [(old, new)] := by
    simp [step, hq, request]
  have hprep := (prepare_iff s hd a b).mpr ⟨by simp [hp], hj, hpr⟩
  rw [hst]
  simp [renameFiles, hprep, hp, renameLoop, hr, ha, editReply]

/-- **C87.** Renaming a file that can be removed and whose new name can be added. -/
theorem C87_rename (w : World P) (s : State P) (p p' p'' : P) (hp : s.project = some p)
    (hj : s.job = none) (hq : s.quitting = false) (hd : Distinct s.data) (a b : Name)
    (hpr : ∃ pr ∈ s.data.products, pr.name = a ∧ b ∈ pr.groups) (old new : Name)
    (hr : w.remove p a b old = some p') (ha : w.add p' a b new = some p'') :
    (step w s (.request (.renameFiles a b [(old, new)]))).1.project = some p''
      ∧ (step w s (.request (.renameFiles a b [(old, new)]))).2
        = [.reply { kind := .filesRenamed, data := some (w.data p'') }] := by
  have hst : step w s (.request (.renameFiles a b [(old, new)])) = renameFiles w s a b [(old, new)] := by
    simp [step, hq, request]
  have hprep := (prepare_iff s hd a b).mpr ⟨by simp [hp], hj, hpr⟩
  rw [hst]
  simp [renameFiles, hprep, hp, renameLoop, hr, ha, editReply]

/-! ## Concrete cases -/

def lib : Product := ⟨"lib", true, true, ["lib", "tests"]⟩
def app : Product := ⟨"app", true, true, ["app"]⟩
def doc : Product := ⟨"doc", true, false, []⟩
def old : Product := ⟨"old", false, true, []⟩

/-- A project is a list of files; its data have a product in it, one in a subproject, one in a
subproject of that, and one in another subproject. -/
def sample : World (List Name) where
  data p := .node p.length [lib] (.node 0 [app] (.node 1 [doc] .stop .stop) (.node 2 [old] .stop .stop)) .stop
  add p _ _ x := if x ∈ p then none else some (x :: p)
  remove p _ _ x := if x ∈ p then some (p.erase x) else none
  depend p _ _ ds := if "nosuch" ∈ ds then none else some p
  envOk _ _ := true

/-- A polite client: it resolves, builds, cancels, asks again, edits and releases. -/
def session1 : List (Event (List Name)) :=
  [.request (.build .absent .never), .request (.resolve .always), .finished (.ok ["a.cpp"]),
   .request (.build (.names ["app"]) .onlyIfChanged), .request .cancel, .finished (.failed none),
   .request (.addFiles "lib" "tests" ["t.cpp", "a.cpp"]), .request (.clean .absent)]

example : NoQuit session1 := by unfold NoQuit session1; simp
example : Polite 0 (trace sample session1) := by
  unfold trace session1
  simp only [Polite, List.zip, List.zipWith, run]
  decide +kernel
example : expected session1 = [.built, .resolved, .built, .filesAdded, .cleaned] := rfl
example : (replies (trace sample session1)).map (·.kind) = [.built, .resolved, .built, .filesAdded] := by
  decide +kernel
example : running none (trace sample session1) = some .clean := by decide +kernel
example : (replies (trace sample session1)).map (·.error)
    = [some .noProject, none, some .operationFailed, some .operationFailed] := by decide +kernel
example : (replies (trace sample session1)).map (·.failed) = [[], [], [], ["a.cpp"]] := by
  decide +kernel

/-- A client that asks for data. -/
def session2 : List (Event (List Name)) :=
  [.request (.resolve .onlyIfChanged), .finished (.ok ["a.cpp"]), .request (.build .all .onlyIfChanged),
   .finished (.ok ["g.cpp", "a.cpp"]), .request (.removeFiles "app" "app" ["a.cpp", "b.cpp"]),
   .request (.renameFiles "app" "app" [("g.cpp", "h.cpp")])]

example : NoQuit session2 := by unfold NoQuit session2; simp
example : AsksForData session2 := by unfold AsksForData session2; simp
example : ∀ rep ∈ replies (trace sample session2), rep.error = some .operationFailed →
    rep.kind ≠ .built ∧ rep.kind ≠ .filesRenamed := by decide +kernel
example : (run sample {} session2).1.job = none := by decide +kernel
example : clientCopy (trace sample session2) = sample.data ["h.cpp"] := by decide +kernel

/-- A session with an open project. -/
def opened : State (List Name) := { project := some ["a.cpp"], data := sample.data ["a.cpp"] }

example : Distinct opened.data := by
  show (((sample.data ["a.cpp"]).products).map (·.name)).Nodup
  decide +kernel
example : ∃ pr ∈ opened.data.products, pr.name = "lib" ∧ "tests" ∈ pr.groups := by decide +kernel
example : ¬ ∃ pr ∈ opened.data.products, pr.name = "lib" ∧ "app" ∈ pr.groups := by decide +kernel
example : (step sample opened (.request (.build (.names ["doc", "nosuch", "old", "lib"]) .never))).2
    = [.start .build [lib, doc]] := by decide +kernel
example : (step sample opened (.request (.build .absent .never))).2 = [.start .build [lib, app]] := by
  decide +kernel
example : (step sample opened (.request (.build .all .never))).2 = [.start .build [lib, app, doc]] := by
  decide +kernel
example : (step sample opened (.request (.clean (.names ["nosuch"])))).2
    = [.start .clean [lib, app, doc]] := by decide +kernel
example : ∃ p ∈ opened.data.products, p.name ∈ ["doc", "nosuch"] := by decide +kernel
example : ∀ p ∈ opened.data.products, p.name ∉ ["nosuch"] := by decide +kernel
example : sample.depend ["a.cpp"] "lib" "tests" ["nosuch"] = none := by decide +kernel
example : sample.remove ["a.cpp", "b.cpp"] "lib" "tests" "a.cpp" = some ["b.cpp"]
    ∧ sample.add ["b.cpp"] "lib" "tests" "b.cpp" = none := by decide +kernel
example : productByName opened.data "doc" = some doc := by decide +kernel

/-- A session with a running build. -/
def building : State (List Name) :=
  { opened with job := some { kind := .build, mode := .onlyIfChanged, canceling := true } }

example : (step sample building (.finished (.ok ["a.cpp", "b.cpp"]))).2
    = [.reply { kind := .built, data := some (sample.data ["a.cpp", "b.cpp"]) }] := by decide +kernel
example : (step sample building (.request (.install .all))).2
    = [.reply { kind := .installDone, error := some .busy }] := by decide +kernel
example : (step sample building (.request (.resolve .never))).2
    = [.reply { kind := .resolved, error := some .busy }] := by decide +kernel
example : building.job = some ⟨.build, .onlyIfChanged, true⟩ ∧ building.stored = none
    ∧ building.quitting = false := ⟨rfl, rfl, rfl⟩

/-- All these states are reached. -/
example : (run sample {} (session2.take 2)).1.data = opened.data
    ∧ (run sample {} (session2.take 2)).1.project = opened.project
    ∧ (run sample {} (session2.take 2)).1.job = none := by decide +kernel
example : (run sample {} (session2.take 2 ++ [.request (.build .all .onlyIfChanged), .request .cancel])).1.job
    = building.job := by decide +kernel

end Verif.Api
