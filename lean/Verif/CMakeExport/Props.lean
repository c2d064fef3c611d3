import Verif.CMakeExport.Exec

/-! # C131: CMake packages -/

namespace Verif.CMakeExport

theorem locations_spec {libs imps : List (Option Text)} {i : Nat} {l : Text} (h : libs[i]? = some (some l))
    (hj : ∀ j, j < i → libs[j]? = some none) : locations libs imps = (some l, imps[i]?.join) := by
  induction i generalizing libs imps with
  | zero =>
    cases libs with
    | nil => cases h
    | cons a libs =>
      simp at h
      subst h
      cases imps <;> rfl
  | succ i ih =>
    cases libs with
    | nil => cases h
    | cons a libs =>
      have h0 := hj 0 (by omega)
      simp at h0
      subst h0
      have := ih (libs := libs) (imps := imps.tail) (by simpa using h) (fun j hlt => by simpa using hj (j + 1) (by omega))
      rw [locations, this]
      cases imps with
      | nil => rfl
      | cons b imps => simp

theorem library_spec {p : Product} {k : Text} {loc imp : Option Text} (h : Library p k loc imp) :
    kind p = k ∧ locations (libArtifacts p) (libImportArtifacts p) = (loc, imp) := by
  cases h with
  | interface h1 h2 =>
    simp only [kind, libArtifacts, libImportArtifacts, List.contains_iff_mem, h1, h2, if_false, true_and]
    rfl
  | shared h1 h2 h3 =>
    simp only [kind, libArtifacts, libImportArtifacts, List.contains_iff_mem, h1, if_true, true_and]
    exact locations_spec h2 h3
  | static h1 h2 h3 h4 =>
    simp only [kind, libArtifacts, libImportArtifacts, List.contains_iff_mem, h1, h2, if_true, true_and, if_false]
    rw [locations_spec h3 h4]
    rfl

theorem config_spec {p : Product} {c : Text} (h : Config p c) : configuration p = c := by
  cases h with
  | variant h hne =>
    unfold configuration
    rw [h]
    rename_i v
    cases v with
    | nil => exact absurd rfl hne
    | cons a v => rfl
  | empty h => unfold configuration; rw [h]
  | none h => unfold configuration; rw [h]

theorem joinComma_spec (f : Text) (fs : List Text) : joinComma (f :: fs) = f ++ fs.flatMap (',' :: ·) := by
  induction fs generalizing f with
  | nil => simp [joinComma]
  | cons g fs ih => rw [joinComma, ih, List.flatMap_cons]; simp; simp

theorem linkOptions_spec {c : Cpp} {lf : List Text} (h : LinkerFlags c.linkerFlags lf) :
    linkOptions c = c.driverLinkerFlags.getD [] ++ lf := by
  unfold linkOptions
  congr 1
  generalize hx : c.linkerFlags = x at h
  cases h with
  | none => rfl
  | nil => rfl
  | some => simp [joinComma_spec]

def pathArg (p : Product) (v : Text) : Arg := ⟨true, raw p v⟩
def plainArg (v : Text) : Arg := ⟨true, v⟩

def allArgs (p : Product) (c : Cpp) (loc imp : Option Text) : Args where
  loc := loc.map (pathArg p)
  imp := imp.map (pathArg p)
  dirs := (c.libraryPaths.getD []).map (pathArg p)
  libs := (linkLibraries c).map (pathArg p)
  opts := (linkOptions c).map plainArg
  incs := (c.includePaths.getD []).map (pathArg p)
  defs := (c.defines.getD []).map plainArg
  copts := (compileOptions c).map plainArg

theorem mapAll_paths {p : Product} {c : Cpp} (h : p.ok c) {l : List Text} (hl : ∀ v ∈ l, Exportable p v) :
    mapAll (quoteAndPrefixify p) l = some ((l.map (pathArg p)).map Arg.text) := by
  induction l with
  | nil => rfl
  | cons v l ih =>
    rw [mapAll, quoted_path h (hl v (by simp)), ih (fun x hx => hl x (by simp [hx]))]
    rfl

theorem location_path {p : Product} {c : Cpp} (h : p.ok c) {o : Option Text} (ho : ∀ v, o = some v → Exportable p v) :
    location p o = some ((o.map (pathArg p)).map Arg.text) := by
  cases o with
  | none => rfl
  | some v => rw [location, quoted_path h (ho v rfl)]; rfl

theorem mem_getD {o : Option (List Text)} {v : Text} (h : v ∈ o.getD []) : ∃ l, o = some l ∧ v ∈ l := by
  cases o with
  | none => cases h
  | some l => exact ⟨l, rfl, h⟩

theorem mem_join {l : List (Option Text)} {i : Nat} {v : Text} (h : l[i]?.join = some v) : some v ∈ l := by
  cases h' : l[i]? with
  | none => rw [h'] at h; cases h
  | some x => rw [h'] at h; simp at h; subst h; exact List.mem_of_getElem? h'

/-- What is written for a product whose values need no quoting -/
theorem collect_spec {p : Product} {c : Cpp} (h : p.ok c) {k : Text} {loc imp : Option Text} (hl : Library p k loc imp) :
    collect p c = some (allArgs p c loc imp).data ∧ (∀ v, loc = some v → Exportable p v) ∧ (∀ v, imp = some v → Exportable p v) := by
  have e1 : ∀ v, loc = some v → Exportable p v := by
    intro v hv
    cases hl with
    | interface => cases hv
    | shared h1 h2 h3 => cases hv; exact h.paths _ (.inr (.inr (.inr (.inr (.inr (.inl (List.mem_of_getElem? h2)))))))
    | static h1 h2 h3 h4 => cases hv; exact h.paths _ (.inr (.inr (.inr (.inr (.inr (.inr (.inr (List.mem_of_getElem? h3))))))))
  have e2 : ∀ v, imp = some v → Exportable p v := by
    intro v hv
    cases hl with
    | interface => cases hv
    | shared h1 h2 h3 => exact h.paths _ (.inr (.inr (.inr (.inr (.inr (.inr (.inl (mem_join hv))))))))
    | static h1 h2 h3 h4 => cases hv
  refine ⟨?_, e1, e2⟩
  unfold collect
  simp only [(library_spec hl).2]
  rw [location_path h e1, location_path h e2, mapAll_paths h (fun v hv => h.paths v (.inl (mem_getD hv))),
    mapAll_paths h (l := linkLibraries c), mapAll_paths h (fun v hv => h.paths v (.inr (.inl (mem_getD hv))))]
  · simp only [allArgs, Args.data, List.map_map]
    rfl
  · intro v hv
    unfold linkLibraries at hv
    rcases List.mem_append.mp hv with x | x
    · rcases List.mem_append.mp x with y | y
      · exact h.paths v (.inr (.inr (.inl (mem_getD y))))
      · exact h.paths v (.inr (.inr (.inr (.inl (mem_getD y)))))
    · exact h.paths v (.inr (.inr (.inr (.inr (.inl (mem_getD x))))))

theorem plain_flatMap {fs : List Text} (h : ∀ f ∈ fs, Plain f) : ∀ c ∈ fs.flatMap (',' :: ·), isPlain c = true := by
  intro c hc
  obtain ⟨f, hf, hc⟩ := List.mem_flatMap.mp hc
  rcases List.mem_cons.mp hc with x | x
  · subst x; decide
  · exact (h f hf).2 c x

theorem linkOptions_plain {p : Product} {c : Cpp} (h : p.ok c) : ∀ v ∈ linkOptions c, Plain v := by
  intro v hv
  unfold linkOptions at hv
  rcases List.mem_append.mp hv with x | x
  · exact h.flags v (.inl (mem_getD x))
  · cases hf : c.linkerFlags with
    | none => rw [hf] at x; simp at x
    | some l =>
      cases l with
      | nil => rw [hf] at x; simp at x
      | cons f fs =>
        rw [hf] at x
        have hl : ∀ g ∈ f :: fs, Plain g := fun g hg => h.flags g (.inr (.inl ⟨_, hf, hg⟩))
        simp only [Option.getD_some, List.length_cons, gt_iff_lt, Nat.zero_lt_succ, if_true, List.mem_singleton, joinComma_spec] at x
        subst x
        refine ⟨by simp, fun ch hc => ?_⟩
        rcases List.mem_append.mp hc with y | y
        · exact (by decide : ∀ c ∈ "LINKER:".toList, isPlain c = true) ch y
        · rcases List.mem_append.mp y with z | z
          · exact (hl f (by simp)).2 ch z
          · exact plain_flatMap (fun g hg => hl g (by simp [hg])) ch z

theorem compileOptions_plain {p : Product} {c : Cpp} (h : p.ok c) : ∀ v ∈ compileOptions c, Plain v := by
  intro v hv
  unfold compileOptions at hv
  rcases List.mem_append.mp hv with x | x
  · rcases List.mem_append.mp x with y | y
    · rcases List.mem_append.mp y with z | z
      · exact h.flags v (.inr (.inr (.inr (.inl (mem_getD z)))))
      · exact h.flags v (.inr (.inr (.inr (.inr (.inl (mem_getD z))))))
    · exact h.flags v (.inr (.inr (.inr (.inr (.inr (.inl (mem_getD y)))))))
  · exact h.flags v (.inr (.inr (.inr (.inr (.inr (.inr (mem_getD x)))))))

theorem effect_property (e : Env) (r : Run) (n v : CText) :
    effect e r "set_property".toList ["TARGET".toList, n, "APPEND".toList, "PROPERTY".toList, "IMPORTED_CONFIGURATIONS".toList, v] =
      r.change n (fun t => some { t with configurations := t.configurations ++ elements v }) := rfl

theorem effect_properties (e : Env) (r : Run) (n : CText) (l : List CText) :
    effect e r "set_target_properties".toList (n :: "PROPERTIES".toList :: l) =
      r.change n (fun t => (pairs l).map fun ps => { t with properties := t.properties ++ ps }) := rfl

/-- The commands of the file that is written -/
theorem parsed {p : Product} {c : Cpp} (hc : p.cpp = some c) (h : p.ok c) {k cfg : Text} {loc imp : Option Text}
    (hl : Library p k loc imp) (hcfg : Config p cfg) :
    ∃ text, configFile p = some text ∧ commands text = some (head p ++ [setCmd p] ++ p.packages.map findCmd ++
      targetCmds p (allArgs p c loc imp) ++ listCmds p (allArgs p c loc imp)) := by
  obtain ⟨hcol, hloc, himp⟩ := collect_spec h hl
  obtain ⟨hkind, _⟩ := library_spec hl
  have hconf := config_spec hcfg
  have wcfg : Word (configuration p) := by rw [hconf]; exact h.configuration _ hcfg
  have wvar : Word (prefixVar p) := by
    refine ⟨by simp [prefixVar], fun ch hch => ?_⟩
    unfold prefixVar at hch
    rcases List.mem_append.mp hch with x | x
    · rcases List.mem_cons.mp x with y | y
      · subst y; decide
      · exact h.variable_.2 ch y
    · exact (by decide : ∀ c ∈ "_INSTALL_PREFIX".toList, isWord c = true) ch x
  have wkind : Word (kind p) := by
    rw [hkind]
    cases hl <;> exact ⟨by decide, by decide⟩
  have hpl : ∀ v ∈ linkLibraries c, Exportable p v := by
    intro v hv
    unfold linkLibraries at hv
    rcases List.mem_append.mp hv with x | x
    · rcases List.mem_append.mp x with y | y
      · exact h.paths v (.inr (.inr (.inl (mem_getD y))))
      · exact h.paths v (.inr (.inr (.inr (.inl (mem_getD y)))))
    · exact h.paths v (.inr (.inr (.inr (.inr (.inl (mem_getD x))))))
  have hdirs : ∀ v ∈ c.libraryPaths.getD [], Exportable p v := fun v hv => h.paths v (.inl (mem_getD hv))
  have hincs : ∀ v ∈ c.includePaths.getD [], Exportable p v := fun v hv => h.paths v (.inr (.inl (mem_getD hv)))
  have hdefs : ∀ v ∈ c.defines.getD [], Plain v := fun v hv => h.flags v (.inr (.inr (.inl (mem_getD hv))))
  have hlo := linkOptions_plain h
  have hco := compileOptions_plain h
  have gpath : ∀ v, Exportable p v → (pathArg p v).good := fun v hv => raw_good wvar hv.1.2
  have gplain : ∀ v, Plain v → (plainArg v).good := fun v hv => plain_no_quote hv.2
  have good : ∀ x ∈ (allArgs p c loc imp).all, x.good := by
    intro x hx
    simp only [Args.all, allArgs, List.mem_append, List.mem_map, Option.mem_toList, Option.map_eq_some_iff] at hx
    rcases hx with ((((((⟨v, hv, rfl⟩ | ⟨v, hv, rfl⟩) | ⟨v, hv, rfl⟩) | ⟨v, hv, rfl⟩) | ⟨v, hv, rfl⟩) | ⟨v, hv, rfl⟩) | ⟨v, hv, rfl⟩) | ⟨v, hv, rfl⟩
    · exact gpath v (hloc v hv)
    · exact gpath v (himp v hv)
    · exact gpath v (hdirs v hv)
    · exact gpath v (hpl v hv)
    · exact gplain v (hlo v hv)
    · exact gpath v (hincs v hv)
    · exact gplain v (hdefs v hv)
    · exact gplain v (hco v hv)
  have hnone : kind p = "INTERFACE".toList ↔ (allArgs p c loc imp).loc = none := by
    rw [hkind]
    cases hl with
    | interface => exact ⟨fun _ => rfl, fun _ => rfl⟩
    | shared => exact ⟨fun x => absurd x (by decide), fun x => by cases x⟩
    | static => exact ⟨fun x => absurd x (by decide), fun x => by cases x⟩
  have hcmds := commands_file h.name wvar wkind wcfg h.relative h.packages good hnone
  exact ⟨_, by rw [configFile, hc]; simp only [hcol]; rfl, hcmds⟩

/-- **C131.** The package file that is written for a product can be read, and it defines the target with the exported properties of
the product: the libraries, paths, flags and definitions are those of the product, in their order, and paths below the install
prefix are those of the place where the files are now. This holds for values without characters that have a meaning in CMake, for
paths outside of the project and for directories without separators at their ends; see the other theorems. -/
theorem C131_read_back_partial {p : Product} {c : Cpp} (hc : p.cpp = some c) (h : p.ok c) {k cfg : Text} {loc imp : Option Text}
    {lf : List Text} (hl : Library p k loc imp) (hcfg : Config p cfg) (hlf : LinkerFlags c.linkerFlags lf) {dir : Text}
    (hd : ';' ∉ dir) {e : Env} (ht : p.packageName ∉ e.targets)
    (he : ∀ q ∈ p.packages, ∀ x ∈ e.sets q, x.1 ≠ '_' :: p.packageName.map Char.toUpper ++ "_INSTALL_PREFIX".toList) :
    ∃ text r, configFile p = some text ∧ load e dir text = some r ∧ r.packages = p.packages ∧
      r.target = some (target p c (newPrefix p dir) k cfg loc imp lf) := by
  obtain ⟨hcol, hloc, himp⟩ := collect_spec h hl
  obtain ⟨hkind, _⟩ := library_spec hl
  have hconf := config_spec hcfg
  have hopts := linkOptions_spec hlf
  have wcfg : Word (configuration p) := by rw [hconf]; exact h.configuration _ hcfg
  have wvar : Word (prefixVar p) := by
    refine ⟨by simp [prefixVar], fun ch hch => ?_⟩
    unfold prefixVar at hch
    rcases List.mem_append.mp hch with x | x
    · rcases List.mem_cons.mp x with y | y
      · subst y; decide
      · exact h.variable_.2 ch y
    · exact (by decide : ∀ c ∈ "_INSTALL_PREFIX".toList, isWord c = true) ch x
  have wkind : Word (kind p) := by
    rw [hkind]
    cases hl <;> exact ⟨by decide, by decide⟩
  have hpl : ∀ v ∈ linkLibraries c, Exportable p v := by
    intro v hv
    unfold linkLibraries at hv
    rcases List.mem_append.mp hv with x | x
    · rcases List.mem_append.mp x with y | y
      · exact h.paths v (.inr (.inr (.inl (mem_getD y))))
      · exact h.paths v (.inr (.inr (.inr (.inl (mem_getD y)))))
    · exact h.paths v (.inr (.inr (.inr (.inr (.inl (mem_getD x))))))
  have hdirs : ∀ v ∈ c.libraryPaths.getD [], Exportable p v := fun v hv => h.paths v (.inl (mem_getD hv))
  have hincs : ∀ v ∈ c.includePaths.getD [], Exportable p v := fun v hv => h.paths v (.inr (.inl (mem_getD hv)))
  have hdefs : ∀ v ∈ c.defines.getD [], Plain v := fun v hv => h.flags v (.inr (.inr (.inl (mem_getD hv))))
  have hlo := linkOptions_plain h
  have hco := compileOptions_plain h
  have gpath : ∀ v, Exportable p v → (pathArg p v).good := fun v hv => raw_good wvar hv.1.2
  have gplain : ∀ v, Plain v → (plainArg v).good := fun v hv => plain_no_quote hv.2
  have good : ∀ x ∈ (allArgs p c loc imp).all, x.good := by
    intro x hx
    simp only [Args.all, allArgs, List.mem_append, List.mem_map, Option.mem_toList, Option.map_eq_some_iff] at hx
    rcases hx with ((((((⟨v, hv, rfl⟩ | ⟨v, hv, rfl⟩) | ⟨v, hv, rfl⟩) | ⟨v, hv, rfl⟩) | ⟨v, hv, rfl⟩) | ⟨v, hv, rfl⟩) | ⟨v, hv, rfl⟩) | ⟨v, hv, rfl⟩
    · exact gpath v (hloc v hv)
    · exact gpath v (himp v hv)
    · exact gpath v (hdirs v hv)
    · exact gpath v (hpl v hv)
    · exact gplain v (hlo v hv)
    · exact gpath v (hincs v hv)
    · exact gplain v (hdefs v hv)
    · exact gplain v (hco v hv)
  have hnone : kind p = "INTERFACE".toList ↔ (allArgs p c loc imp).loc = none := by
    rw [hkind]
    cases hl with
    | interface => exact ⟨fun _ => rfl, fun _ => rfl⟩
    | shared => exact ⟨fun x => absurd x (by decide), fun x => by cases x⟩
    | static => exact ⟨fun x => absurd x (by decide), fun x => by cases x⟩
  have hcmds := commands_file h.name wvar wkind wcfg h.relative h.packages good hnone
  have hne : newPrefix p dir ≠ [] := by simp [newPrefix]
  have hnew : ';' ∉ newPrefix p dir := by
    unfold newPrefix
    intro x
    rcases List.mem_append.mp x with y | y
    · exact hd y
    · rcases List.mem_cons.mp y with z | z
      · cases z
      · exact (isPlain_iff (h.relative _ z)).2.2.2 rfl
  let r0 : Run := { vars := [("CMAKE_CURRENT_LIST_DIR".toList, dir)] }
  let r1 : Run := { r0 with vars := (prefixVar p, newPrefix p dir) :: r0.vars }
  obtain ⟨vs, hvs, hfind⟩ := run_find (e := e) (n := prefixVar p) (r := r1) (cs := targetCmds p (allArgs p c loc imp) ++
    listCmds p (allArgs p c loc imp)) h.packages rfl he
  have hval : vs.value (prefixVar p) = newPrefix p dir := by rw [hvs]; exact value_cons _ _ _
  have ipath : ∀ v, Exportable p v → Item vs (pathArg p v) (moved p (newPrefix p dir) v) := fun v hv => item_path wvar hv.1 hval hne hnew
  have iplain : ∀ v, Plain v → Item vs (plainArg v) v := fun v hv => item_quoted hv
  have lit : ∀ {s : CText}, (s ≠ [] ∧ ∀ c ∈ s, isWord c = true) → Item vs (word s) s := fun hs => item_word hs
  let r2 : Run := { vars := vs, packages := p.packages }
  let t1 : Target := { name := p.packageName, kind := k }
  let t2 : Target := { t1 with configurations := [cfg] }
  let props : List (CText × CText) := [("IMPORTED_LINK_INTERFACE_LANGUAGES_".toList ++ cfg, "CXX".toList)] ++
    loc.toList.map (fun l => ("IMPORTED_LOCATION_".toList ++ cfg, moved p (newPrefix p dir) l)) ++
    imp.toList.map (fun l => ("IMPORTED_IMPLIB_".toList ++ cfg, moved p (newPrefix p dir) l))
  let t3 : Target := { t2 with properties := props }
  have wl : ∀ {s : CText}, (s ≠ [] ∧ ∀ c ∈ s, isWord c = true) → Item vs (word (s ++ cfg)) (s ++ cfg) := fun hs =>
    item_word (Word.append hs (hconf ▸ wcfg))
  have a1 : ∀ cs, run e r2 (("add_library".toList, [word p.packageName, word (kind p), word "IMPORTED".toList]) :: cs) =
      run e { r2 with target := some t1 } cs := fun cs =>
    run_effect ⟨by decide, by decide, by decide⟩ rfl
      (values_cons (item_word h.name) (values_cons (item_word wkind) (values_cons (lit ⟨by decide, by decide⟩) rfl)))
      (by rw [hkind]; rfl)
  have ecfg : elements cfg = [cfg] := (item_word (vs := vs) (hconf ▸ wcfg)).elements
  have a2 : ∀ cs, run e { r2 with target := some t1 } (("set_property".toList, [word "TARGET".toList, word p.packageName, word "APPEND".toList,
      word "PROPERTY".toList, word "IMPORTED_CONFIGURATIONS".toList, word (configuration p)]) :: cs) =
      run e { r2 with target := some t2 } cs := fun cs =>
    run_effect ⟨by decide, by decide, by decide⟩ rfl
      (values_cons (lit ⟨by decide, by decide⟩) (values_cons (item_word h.name) (values_cons (lit ⟨by decide, by decide⟩)
        (values_cons (lit ⟨by decide, by decide⟩) (values_cons (lit ⟨by decide, by decide⟩) (values_cons (item_word wcfg) rfl))))))
      (by
        rw [hconf]
        rw [effect_property]
        simp only [Run.change, t1, if_true, Option.map_some, ecfg]
        rfl)
  have vprops : ∃ l, values vs (properties (configuration p) (allArgs p c loc imp)) = some l ∧ pairs l = some props := by
    rw [hconf]
    unfold properties allArgs
    have b0 : values vs [word ("IMPORTED_LINK_INTERFACE_LANGUAGES_".toList ++ cfg), word "CXX".toList] =
        some ["IMPORTED_LINK_INTERFACE_LANGUAGES_".toList ++ cfg, "CXX".toList] :=
      values_cons (wl ⟨by decide, by decide⟩) (values_cons (lit ⟨by decide, by decide⟩) rfl)
    have b1 : ∀ v, loc = some v → values vs [word ("IMPORTED_LOCATION_".toList ++ cfg), pathArg p v] =
        some ["IMPORTED_LOCATION_".toList ++ cfg, moved p (newPrefix p dir) v] := fun v hv =>
      values_cons (wl ⟨by decide, by decide⟩) (values_cons (ipath v (hloc v hv)) rfl)
    have b2 : ∀ v, imp = some v → values vs [word ("IMPORTED_IMPLIB_".toList ++ cfg), pathArg p v] =
        some ["IMPORTED_IMPLIB_".toList ++ cfg, moved p (newPrefix p dir) v] := fun v hv =>
      values_cons (wl ⟨by decide, by decide⟩) (values_cons (ipath v (himp v hv)) rfl)
    cases loc with
    | none =>
      cases imp with
      | none => exact ⟨_, values_append (values_append b0 rfl) rfl, rfl⟩
      | some w => exact ⟨_, values_append (values_append b0 rfl) (b2 w rfl), rfl⟩
    | some v =>
      cases imp with
      | none => exact ⟨_, values_append (values_append b0 (b1 v rfl)) rfl, rfl⟩
      | some w => exact ⟨_, values_append (values_append b0 (b1 v rfl)) (b2 w rfl), rfl⟩
  obtain ⟨pl, hpv, hpp⟩ := vprops
  have a3 : ∀ cs, run e { r2 with target := some t2 } (("set_target_properties".toList, [word p.packageName, word "PROPERTIES".toList] ++
      properties (configuration p) (allArgs p c loc imp)) :: cs) = run e { r2 with target := some t3 } cs := fun cs =>
    run_effect ⟨by decide, by decide, by decide⟩ rfl
      (values_cons (item_word h.name) (values_cons (lit ⟨by decide, by decide⟩) hpv))
      (by
        rw [effect_properties]
        simp only [Run.change, t2, t1, if_true, Option.map_some, hpp]
        rfl)
  let t4 : Target := { t3 with linkDirectories := (c.libraryPaths.getD []).map (moved p (newPrefix p dir)) }
  let t5 : Target := { t4 with linkLibraries := (linkLibraries c).map (moved p (newPrefix p dir)) ++ p.packages }
  let t6 : Target := { t5 with linkOptions := linkOptions c }
  let t7 : Target := { t6 with includeDirectories := (c.includePaths.getD []).map (moved p (newPrefix p dir)) }
  let t8 : Target := { t7 with compileDefinitions := c.defines.getD [] }
  let t9 : Target := { t8 with compileOptions := compileOptions c }
  have idl : ∀ {l : List Text}, (∀ v ∈ l, Plain v) → values vs (l.map plainArg) = some l ∧ l.flatMap elements = l := by
    intro l hl'
    have x := values_map (vs := vs) (f := plainArg) (g := id) (fun v hv => iplain v (hl' v hv))
    have y := elements_map (vs := vs) (f := plainArg) (g := id) (fun v hv => iplain v (hl' v hv))
    rw [List.map_id] at x y
    exact ⟨x, y⟩
  have pkv : values vs (p.packages.map word) = some p.packages ∧ p.packages.flatMap elements = p.packages := by
    have x := values_map (vs := vs) (f := word) (g := id) (fun v hv => item_word (h.packages v hv))
    have y := elements_map (vs := vs) (f := word) (g := id) (fun v hv => item_word (h.packages v hv))
    rw [List.map_id] at x y
    exact ⟨x, y⟩
  have l4 : ∀ cs, run e { r2 with target := some t3 } (addCmd p.packageName "target_link_directories".toList (allArgs p c loc imp).dirs ++ cs) =
      run e { r2 with target := some t4 } cs := fun cs =>
    run_add ⟨by decide, by decide, by decide⟩ (fun _ => rfl) h.name rfl rfl rfl (values_map (fun v hv => ipath v (hdirs v hv)))
      (by unfold addTo; simp only [elements_map (fun v hv => ipath v (hdirs v hv))]; rfl)
      (fun x => by
        have : c.libraryPaths.getD [] = [] := List.map_eq_nil_iff.mp x
        simp only [t4, this]; rfl)
  have l5 : ∀ cs, run e { r2 with target := some t4 } (addCmd p.packageName "target_link_libraries".toList
      ((allArgs p c loc imp).libs ++ p.packages.map word) ++ cs) = run e { r2 with target := some t5 } cs := fun cs =>
    run_add ⟨by decide, by decide, by decide⟩ (fun _ => rfl) h.name rfl rfl rfl
      (values_append (values_map (fun v hv => ipath v (hpl v hv))) pkv.1)
      (by unfold addTo; simp only [List.flatMap_append, elements_map (fun v hv => ipath v (hpl v hv)), pkv.2]; rfl)
      (fun x => by
        obtain ⟨x, y⟩ := List.append_eq_nil_iff.mp x
        have e1 : linkLibraries c = [] := List.map_eq_nil_iff.mp x
        have e2 : p.packages = [] := List.map_eq_nil_iff.mp y
        simp only [t5, e1, e2]; rfl)
  have l6 : ∀ cs, run e { r2 with target := some t5 } (addCmd p.packageName "target_link_options".toList (allArgs p c loc imp).opts ++ cs) =
      run e { r2 with target := some t6 } cs := fun cs =>
    run_add ⟨by decide, by decide, by decide⟩ (fun _ => rfl) h.name rfl rfl rfl (idl hlo).1
      (by unfold addTo; simp only [(idl hlo).2]; rfl)
      (fun x => by
        have : linkOptions c = [] := List.map_eq_nil_iff.mp x
        simp only [t6, this]; rfl)
  have l7 : ∀ cs, run e { r2 with target := some t6 } (addCmd p.packageName "target_include_directories".toList (allArgs p c loc imp).incs ++ cs) =
      run e { r2 with target := some t7 } cs := fun cs =>
    run_add ⟨by decide, by decide, by decide⟩ (fun _ => rfl) h.name rfl rfl rfl (values_map (fun v hv => ipath v (hincs v hv)))
      (by unfold addTo; simp only [elements_map (fun v hv => ipath v (hincs v hv))]; rfl)
      (fun x => by
        have : c.includePaths.getD [] = [] := List.map_eq_nil_iff.mp x
        simp only [t7, this]; rfl)
  have l8 : ∀ cs, run e { r2 with target := some t7 } (addCmd p.packageName "target_compile_definitions".toList (allArgs p c loc imp).defs ++ cs) =
      run e { r2 with target := some t8 } cs := fun cs =>
    run_add ⟨by decide, by decide, by decide⟩ (fun _ => rfl) h.name rfl rfl rfl (idl hdefs).1
      (by unfold addTo; simp only [(idl hdefs).2]; rfl)
      (fun x => by
        have : c.defines.getD [] = [] := List.map_eq_nil_iff.mp x
        simp only [t8, this]; rfl)
  have l9 : ∀ cs, run e { r2 with target := some t8 } (addCmd p.packageName "target_compile_options".toList (allArgs p c loc imp).copts ++ cs) =
      run e { r2 with target := some t9 } cs := fun cs =>
    run_add ⟨by decide, by decide, by decide⟩ (fun _ => rfl) h.name rfl rfl rfl (idl hco).1
      (by unfold addTo; simp only [(idl hco).2]; rfl)
      (fun x => by
        have : compileOptions c = [] := List.map_eq_nil_iff.mp x
        simp only [t9, this]; rfl)
  refine ⟨_, { r2 with target := some t9 }, by rw [configFile, hc]; simp only [hcol]; rfl, ?_, rfl, ?_⟩
  · unfold load
    rw [hcmds]
    simp only []
    have s1 := run_head (e := e) (r := r0) (cs := setCmd p :: (p.packages.map findCmd ++ (targetCmds p (allArgs p c loc imp) ++
      listCmds p (allArgs p c loc imp)))) h.name rfl ht
    have s2 := run_set (e := e) (r := r0) (cs := p.packages.map findCmd ++ (targetCmds p (allArgs p c loc imp) ++
      listCmds p (allArgs p c loc imp))) wvar rfl h.relative (value_cons _ _ _)
    have full : run e r0 (head p ++ setCmd p :: (p.packages.map findCmd ++ (targetCmds p (allArgs p c loc imp) ++
        listCmds p (allArgs p c loc imp)))) = some { r2 with target := some t9 } := by
      rw [s1, s2, hfind]
      show run e r2 _ = _
      unfold targetCmds listCmds
      simp only [List.cons_append, List.nil_append, List.append_assoc]
      rw [a1]
      have a3' := a3
      simp only [List.cons_append, List.nil_append] at a3'
      rw [a2, a3', l4, l5, l6, l7, l8]
      have := l9 []
      rw [List.append_nil] at this
      rw [this]
      rfl
    simp only [List.append_assoc, List.cons_append, List.nil_append] at full ⊢
    exact full
  · show some t9 = _
    simp only [t9, t8, t7, t6, t5, t4, t3, t2, t1, target, hopts, props]
    rfl

/-- **C131.** If there is a target with this name already, because the file was read before, nothing happens. -/
theorem C131_again {p : Product} {c : Cpp} (hc : p.cpp = some c) (h : p.ok c) {k cfg : Text} {loc imp : Option Text}
    (hl : Library p k loc imp) (hcfg : Config p cfg) (dir : Text) {e : Env} (ht : p.packageName ∈ e.targets) :
    ∃ text r, configFile p = some text ∧ load e dir text = some r ∧ r.target = none ∧ r.packages = [] ∧
      r.vars = [("CMAKE_CURRENT_LIST_DIR".toList, dir)] := by
  obtain ⟨text, h1, h2⟩ := parsed hc h hl hcfg
  refine ⟨text, { vars := [("CMAKE_CURRENT_LIST_DIR".toList, dir)] }, h1, ?_, rfl, rfl, rfl⟩
  unfold load
  rw [h2]
  simp only [head, List.cons_append, List.append_assoc]
  have v2 : ∀ vs : Vars, values vs [word "TARGET".toList, word p.packageName] = some ["TARGET".toList, p.packageName] := fun vs =>
    values_cons (item_word ⟨by decide, by decide⟩) (values_cons (item_word h.name) rfl)
  rw [run_effect ⟨by decide, by decide, by decide⟩ rfl rfl rfl, run, if_neg (by decide)]
  simp only [Bool.false_eq_true, if_false, v2]
  rw [if_neg (by decide)]
  have hcon : e.targets.contains p.packageName = true := by simpa using ht
  simp only [if_true, hcon, Bool.not_true]
  rw [run, if_neg (by decide)]
  simp only [Bool.false_eq_true, if_false, values]
  rw [if_pos trivial]

/-- **C131.** Paths in the directories of the project, outside of the install root, are not exported: there is an error. -/
theorem C131_inside {p : Product} {c : Cpp} (hc : p.cpp = some c) {v : Text}
    (hv : v ∈ c.includePaths.getD [] ∨ v ∈ c.libraryPaths.getD [])
    (hp : p.buildDirectory <+: v ∨ p.sourceDirectory <+: v) (hr : ¬ p.installRoot <+: v) : configFile p = none := by
  have hq : quoteAndPrefixify p v = none := by
    unfold quoteAndPrefixify prefixToStrip
    rw [if_pos (by simp only [startsWith_iff]; exact ⟨hr, hp⟩)]
  have hm : ∀ l : List Text, v ∈ l → mapAll (quoteAndPrefixify p) l = none := by
    intro l hl
    induction l with
    | nil => cases hl
    | cons a l ih =>
      rcases List.mem_cons.mp hl with x | x
      · subst x; rw [mapAll, hq]
      · rw [mapAll, ih x]; cases quoteAndPrefixify p a <;> rfl
  have hcol : collect p c = none := by
    unfold collect
    rcases hv with x | x
    · simp only [hm _ x]
      repeat' split
      all_goals first | rfl | contradiction
    · simp only [hm _ x]
      repeat' split
      all_goals first | rfl | contradiction
  rw [configFile, hc]
  simp [hcol]

theorem used_fresh {l seen : List CText} (h : l.Nodup) (hs : ∀ x ∈ l, x ∉ seen) : used seen l = l := by
  induction l generalizing seen with
  | nil => rfl
  | cons a l ih =>
    rw [used, if_neg (hs a (by simp))]
    have hn := List.nodup_cons.mp h
    rw [ih hn.2]
    intro x hx
    simp only [List.mem_cons, not_or]
    exact ⟨fun e => hn.1 (e ▸ hx), hs x (by simp [hx])⟩

/-- **C131.** Options without repetitions are used as they are. -/
theorem C131_options {l : List CText} (h : l.Nodup) : used [] l = l := used_fresh h (by simp)

/-- A small product for the findings -/
def small (c : Cpp) : Product where
  packageName := "Foo".toList
  buildDirectory := "/b".toList
  sourceDirectory := "/home/proj".toList
  installRoot := "/b/root".toList
  installPrefix := "/usr".toList
  relativePrefix := "../../..".toList
  cpp := some c

/-- The target that users of the package get -/
def got (p : Product) : Option (Option Target) := ((configFile p).bind (load ⟨[], fun _ => []⟩ "/x".toList)).map (·.target)

/-- **C131 finding.** Options that occur twice are used once: the second header is an argument of the first option. -/
theorem C131_repeated :
    ((got (small { cxxFlags := some ["-include".toList, "a.h".toList, "-include".toList, "b.h".toList] })).join.map (fun t => used [] t.compileOptions)) =
      some ["-include".toList, "a.h".toList, "b.h".toList] := by
  decide +kernel

/-- **C131 finding.** For a product that does not export the module cpp no file can be written. -/
theorem C131_no_cpp {p : Product} (h : p.cpp = none) : configFile p = none := by
  rw [configFile, h]

/-- **C131 finding.** If the library is not installed, the package says that its file is `undefined`. -/
theorem C131_not_installed :
    (got { small {} with type := ["staticlibrary".toList], staticLibrary := [none] }).join.map (·.properties) =
      some [("IMPORTED_LINK_INTERFACE_LANGUAGES_NONE".toList, "CXX".toList), ("IMPORTED_LOCATION_NONE".toList, "undefined".toList)] := by
  decide +kernel

/-- **C131 finding.** Double quotes are not escaped: the file is not correct. -/
theorem C131_double_quote : (configFile (small { defines := some ["A=\"x\"".toList] })).isSome = true ∧
    got (small { defines := some ["A=\"x\"".toList] }) = none := by
  decide +kernel

/-- **C131 finding.** Backslashes are not escaped: they are lost. -/
theorem C131_backslash : (got (small { defines := some ["A=\\\\b".toList] })).join.map (·.compileDefinitions) = some ["A=\\b".toList] := by
  decide +kernel

/-- **C131 finding.** What looks like a variable is replaced. -/
theorem C131_dollar : (got (small { linkerFlags := some ["-rpath".toList, "${ORIGIN}/lib".toList] })).join.map (·.linkOptions) =
    some ["LINKER:-rpath,/lib".toList] := by
  decide +kernel

/-- **C131 finding.** A value with a semicolon becomes two values. -/
theorem C131_semicolon : (got (small { defines := some ["A=1;2".toList] })).join.map (·.compileDefinitions) =
    some ["A=1".toList, ['2']] := by
  decide +kernel

/-- **C131 finding.** With the install prefix `/` paths in the install root are not those of the place where the files are now: they
are the paths in the build directory. -/
theorem C131_root_prefix :
    (got { small { includePaths := some ["/b/root/include".toList] } with installPrefix := ['/'] }).join.map (·.includeDirectories) =
      some ["/b/root/include".toList] := by
  decide +kernel

/-- **C131 finding.** A directory next to the source directory whose name begins with the name of the source directory is taken for a
directory in it. -/
theorem C131_sibling : configFile (small { includePaths := some ["/home/proj-deps/include".toList] }) = none := by
  decide +kernel

/-- **C131 finding.** Packages whose names differ only in case use the same variable: if one needs the other, its paths are those of
the other one. -/
theorem C131_case :
    let foo : Product := { small {} with packageName := "foo".toList }
    let sets : Vars := (((configFile foo).bind (load ⟨[], fun _ => []⟩ "/other".toList)).map (·.vars)).getD []
    (((configFile { small { includePaths := some ["/usr/include".toList] } with packages := ["foo".toList] }).bind
      (load ⟨[], fun _ => sets⟩ "/x".toList)).map (·.target)).join.map (·.includeDirectories) =
        some ["/other/../../../include".toList] := by
  decide +kernel

/-- **C131 finding.** No version file says that a version is accepted: with a version, the package is never found. -/
theorem C131_version {v : Text} (h : ∀ c ∈ v, isPlain c = true) :
    accepts (versionFile v) = some false ∧
    (load ⟨[], fun _ => []⟩ [] (versionFile v)).map (fun r => r.vars.value "PACKAGE_VERSION".toList) = some v := by
  have s1 : Scans ["# Generated by Qbs".toList] [] := fun d => by rw [List.append_nil]; rfl
  have s2 : Scans ["set(PACKAGE_VERSION \"".toList ++ v ++ "\")".toList] [("set".toList, [word "PACKAGE_VERSION".toList, ⟨true, v⟩])] := by
    refine Scans.line (l := [word "PACKAGE_VERSION".toList]) (fun d => rfl) ?_ (plain_no_quote h) ?_
    · intro a ha
      rw [List.mem_singleton] at ha
      subst ha
      exact ⟨by decide, by decide⟩
    · simp [Arg.text, word, quote]
  have hc : commands (versionFile v) = some [("set".toList, [word "PACKAGE_VERSION".toList, ⟨true, v⟩])] := by
    have := (s1.append s2) []
    unfold commands versionFile
    simp only [List.singleton_append, List.nil_append] at this
    rw [this]
  have hl : load ⟨[], fun _ => []⟩ [] (versionFile v) =
      some { vars := [("PACKAGE_VERSION".toList, v), ("CMAKE_CURRENT_LIST_DIR".toList, [])] } := by
    unfold load
    rw [hc]
    simp only []
    have hv : values [("CMAKE_CURRENT_LIST_DIR".toList, [])] [word "PACKAGE_VERSION".toList, ⟨true, v⟩] =
        some ["PACKAGE_VERSION".toList, v] := by
      refine values_cons (item_word ⟨by decide, by decide⟩) ?_
      simp [values, expand_text h]
    rw [run_effect ⟨by decide, by decide, by decide⟩ rfl hv rfl]
    rfl
  refine ⟨?_, ?_⟩
  · unfold accepts
    rw [hl]
    rfl
  · rw [hl]
    rfl

end Verif.CMakeExport
