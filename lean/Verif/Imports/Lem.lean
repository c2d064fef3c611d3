import Verif.Imports.Spec

namespace Verif.Imports

section
variable {α β : Type} [DecidableEq α]

theorem lookup_filter (l : List (α × β)) (a b : α) (h : b ≠ a) :
    lookup (l.filter (fun e => e.1 ≠ a)) b = lookup l b := by
  induction l with
  | nil => rfl
  | cons e l ih =>
    obtain ⟨c, v⟩ := e
    by_cases hc : c = a
    · rw [List.filter_cons_of_neg (by simpa using hc), ih, lookup, if_neg (fun e => h (by rw [← e, hc]))]
    · rw [List.filter_cons_of_pos (by simpa using hc), lookup, lookup, ih]

theorem lookup_insert (l : List (α × β)) (a b : α) (v : β) :
    lookup (insert l a v) b = if b = a then some v else lookup l b := by
  unfold insert
  rw [lookup]
  by_cases h : b = a
  · rw [if_pos h.symm, if_pos h]
  · rw [if_neg (fun e => h e.symm), if_neg h]
    exact lookup_filter l a b h
end

/-- A type in a list of types. -/
def typeOf (l : List (Name × File)) (n : Name) : Option File := (l.find? (fun e => e.1 = n)).map (·.2)

/-- What a list of types adds for a path. -/
def added (as : Option Name) (l : List (Name × File)) (p : Path) : Option File :=
  match as, p with
  | none, [n] => typeOf l n
  | some a, [b, n] => if b = a then typeOf l n else none
  | _, _ => none

theorem added_nil (as : Option Name) (p : Path) : added as [] p = none := by
  cases as with
  | none => match p with
    | [] => rfl
    | [_] => rfl
    | _ :: _ :: _ => rfl
  | some a => match p with
    | [] => rfl
    | [_] => rfl
    | [b, n] => by_cases h : b = a <;> simp [added, h, typeOf]
    | _ :: _ :: _ :: _ => rfl

theorem added_cons (as : Option Name) (m : Name) (f : File) (l : List (Name × File)) (p : Path) :
    added as ((m, f) :: l) p = if p = as.toList ++ [m] then some f else added as l p := by
  have hc : ∀ n, typeOf ((m, f) :: l) n = if n = m then some f else typeOf l n := by
    intro n
    unfold typeOf
    by_cases h : n = m
    · subst h; simp
    · rw [if_neg h, List.find?_cons_of_neg (by simpa using fun e => h e.symm)]
  cases as with
  | none => match p with
    | [] => simp [added]
    | [n] => simp [added, hc]
    | _ :: _ :: _ => simp [added]
  | some a => match p with
    | [] => simp [added]
    | [_] => simp [added]
    | [b, n] =>
      by_cases h : b = a
      · subst h; simp [added, hc]
      · simp [added, h]
    | _ :: _ :: _ :: _ => simp [added]

theorem lookup_collect (as : Option Name) (p : Path) : ∀ (l : List (Name × File)) (types : List (Path × File)),
    lookup (collectTypes types as l) p = (lookup types p).or (added as l p)
  | [], types => by rw [collectTypes, added_nil]; simp
  | (n, f) :: l, types => by
    rw [collectTypes, lookup_collect as p l, added_cons]
    unfold addPrototype
    simp only
    by_cases hp : p = as.toList ++ [n]
    · subst hp
      rw [if_pos rfl]
      by_cases h : (lookup types (as.toList ++ [n])).isSome = true
      · rw [if_pos h]
        obtain ⟨v, hv⟩ := Option.isSome_iff_exists.1 h
        simp [hv]
      · rw [if_neg h, lookup_insert, if_pos rfl]
        simp at h
        simp [h]
    · rw [if_neg hp]
      by_cases h : (lookup types (as.toList ++ [n])).isSome = true
      · rw [if_pos h]
      · rw [if_neg h, lookup_insert, if_neg hp]

theorem lookup_start (w : World) (p : Path) : ∀ (ds : List Dir) (st : St),
    let r := ds.foldl (fun st d => collectPrototypes w st d none) st
    (lookup r.types p = (lookup st.types p).or (match p with
      | [n] => ds.findSome? (w.typeIn n)
      | _ => none)) ∧ r.js = st.js ∧ r.exts = st.exts ∧ r.names = st.names ∧ r.baseImported = st.baseImported
  | [], st => by
    refine ⟨?_, rfl, rfl, rfl, rfl⟩
    match p with
    | [] => simp
    | [_] => simp
    | _ :: _ :: _ => simp
  | d :: ds, st => by
    obtain ⟨h1, h2, h3, h4, h5⟩ := lookup_start w p ds (collectPrototypes w st d none)
    refine ⟨?_, h2, h3, h4, h5⟩
    rw [List.foldl_cons, h1]
    unfold collectPrototypes
    simp only
    rw [lookup_collect]
    match p with
    | [] => simp [added]
    | _ :: _ :: _ => simp [added]
    | [n] =>
      have : added none (w.comps d) [n] = w.typeIn n d := rfl
      simp only [this, List.findSome?_cons, Option.or_assoc]
      congr 1
      cases w.typeIn n d with
      | none => rfl
      | some f => rfl

/-! ### The meaning after some of the imports -/

/-- Like `meaning`, with qbs itself only if it has been imported. -/
def meaningB (w : World) (l : List Stmt) (b : Bool) : Path → Option File
  | [n] =>
    (((named w l n).bind fun s => s.item w).or ((w.searchDirs ++ [w.own]).findSome? (w.typeIn n))).or
      (if b then (w.importDir ["qbs", "base"]).bind (w.typeIn n) else none)
  | [a, n] => ((named w l a).bind fun s => s.dir w).bind (w.typeIn n)
  | _ => none

theorem meaningB_true (w : World) (l : List Stmt) (p : Path) : meaningB w l true p = meaning w l p := by
  unfold meaningB meaning
  match p with
  | [] => rfl
  | [_] => rfl
  | [_, _] => rfl
  | _ :: _ :: _ :: _ => rfl

theorem named_snoc (w : World) (l : List Stmt) (s : Stmt) (a : Name) :
    named w (l ++ [s]) a = (named w l a).or (if s.name w = some a then some s else none) := by
  unfold named
  rw [List.find?_append]
  congr 1
  by_cases h : s.name w = some a
  · simp [h]
  · simp [h]

theorem named_append_some {w : World} {l m : List Stmt} {a : Name} {s : Stmt} (h : named w l a = some s) :
    named w (l ++ m) a = some s := by
  unfold named at h ⊢
  rw [List.find?_append, h]
  rfl

theorem or_isSome {α : Type} {a b : Option α} : (a.or b).isSome = true ↔ a.isSome = true ∨ b.isSome = true := by
  cases a <;> cases b <;> simp

/-- With more imports, more is known. -/
theorem meaningB_mono (w : World) (l m : List Stmt) (b : Bool) (p : Path)
    (h : (meaningB w l b p).isSome = true) : (meaning w (l ++ m) p).isSome = true := by
  match p with
  | [] => simp [meaningB] at h
  | _ :: _ :: _ :: _ => simp [meaningB] at h
  | [n] =>
    unfold meaningB at h
    unfold meaning
    rw [or_isSome, or_isSome] at h ⊢
    rcases h with (h | h) | h
    · refine Or.inl (Or.inl ?_)
      cases hn : named w l n with
      | none => rw [hn] at h; simp at h
      | some s => rw [named_append_some hn]; rw [hn] at h; exact h
    · exact Or.inl (Or.inr h)
    · refine Or.inr ?_
      cases b with
      | true => exact h
      | false => simp at h
  | [a, n] =>
    simp only [meaningB] at h
    simp only [meaning]
    cases hn : named w l a with
    | none => rw [hn] at h; simp at h
    | some s => rw [named_append_some hn]; rw [hn] at h; exact h

/-- The scripts of a scope. -/
def scriptsOf (w : World) (l : List Stmt) (a : Name) : Option (List File) :=
  ((named w l a).map fun s => s.scripts w).bind fun fs => if fs = [] then none else some fs

structure Inv (w : World) (done : List Stmt) (st : St) : Prop where
  types : ∀ p, lookup st.types p = meaningB w done st.baseImported p
  names : st.names = done.filterMap (fun s => s.name w)
  nodup : st.names.Nodup
  noExt : ∀ n ∈ st.names, w.hasExtension n = false
  js : ∀ a, lookup st.js (some a) = scriptsOf w done a
  exts : ∀ x, x ∈ st.exts ↔ ∃ s ∈ done, ∃ p, s.target = .uri p ∧ isBase p = false ∧ extension w p = some x
  base : st.baseImported = true ↔ ∃ s ∈ done, ∃ p, s.target = .uri p ∧ isBase p = true

theorem named_none {w : World} {l : List Stmt} {a : Name} (h : a ∉ l.filterMap (fun s => s.name w)) :
    named w l a = none := by
  unfold named
  rw [List.find?_eq_none]
  intro s hs
  simp only [decide_eq_true_eq]
  intro e
  exact h (List.mem_filterMap.2 ⟨s, hs, e⟩)

theorem start_inv (w : World) : Inv w [] (start w) := by
  have h := fun p => lookup_start w p (w.searchDirs ++ [w.own]) {}
  refine ⟨fun p => ?_, (h []).2.2.2.1, ?_, ?_, fun a => ?_, fun x => ?_, ?_⟩
  · unfold start
    rw [(h p).1, (h p).2.2.2.2]
    match p with
    | [] => rfl
    | [n] => simp [meaningB, named, lookup]
    | [_, _] => rfl
    | _ :: _ :: _ :: _ => rfl
  · unfold start
    rw [(h []).2.2.2.1]
    exact List.nodup_nil
  · unfold start
    rw [(h []).2.2.2.1]
    intro n hn
    simp at hn
  · unfold start
    rw [(h []).2.1]
    rfl
  · unfold start
    rw [(h []).2.2.1]
    simp
  · unfold start
    rw [(h []).2.2.2.2]
    simp

theorem lookup_addJs (js : List (Option Name × List File)) (as b : Option Name) (fs : List File)
    (h : lookup js as = none) :
    lookup (addJs js as fs) b = if b = as then (if fs = [] then none else some fs) else lookup js b := by
  unfold addJs
  by_cases hf : fs = []
  · rw [if_pos hf]
    by_cases hb : b = as
    · rw [if_pos hb, if_pos hf, hb, h]
    · rw [if_neg hb]
  · rw [if_neg hf, lookup_insert]
    by_cases hb : b = as
    · rw [if_pos hb, if_pos hb, if_neg hf, h]; simp
    · rw [if_neg hb, if_neg hb]

theorem meaningB_snoc_none (w : World) (l : List Stmt) (s : Stmt) (b : Bool) (p : Path) (h : s.name w = none) :
    meaningB w (l ++ [s]) b p = meaningB w l b p := by
  have hn : ∀ a, named w (l ++ [s]) a = named w l a := by
    intro a
    rw [named_snoc, if_neg (by rw [h]; simp)]
    simp
  match p with
  | [] => rfl
  | [n] => simp [meaningB, hn]
  | [a, n] => simp [meaningB, hn]
  | _ :: _ :: _ :: _ => rfl

theorem scriptsOf_snoc_none (w : World) (l : List Stmt) (s : Stmt) (a : Name) (h : s.name w = none) :
    scriptsOf w (l ++ [s]) a = scriptsOf w l a := by
  unfold scriptsOf
  rw [named_snoc, if_neg (by rw [h]; simp)]
  simp

/-- What a new name adds. -/
theorem meaningB_snoc_some (w : World) (l : List Stmt) (s : Stmt) (b : Bool) (p : Path) (a : Name)
    (h : s.name w = some a) (hl : named w l a = none) :
    meaningB w (l ++ [s]) b p =
      if p = [a] then (s.item w).or (meaningB w l b p)
      else match p with
        | [c, n] => if c = a then (s.dir w).bind (w.typeIn n) else meaningB w l b p
        | _ => meaningB w l b p := by
  have hn : ∀ c, named w (l ++ [s]) c = if c = a then some s else named w l c := by
    intro c
    rw [named_snoc, h]
    by_cases hc : c = a
    · subst hc; simp [hl]
    · rw [if_neg hc, if_neg (by simpa using fun e => hc e.symm)]; simp
  match p with
  | [] => simp [meaningB]
  | [n] =>
    by_cases hc : n = a
    · subst hc
      simp [meaningB, hn, hl, Option.or_assoc]
    · simp [meaningB, hn, hc]
  | [c, n] =>
    by_cases hc : c = a
    · subst hc
      simp [meaningB, hn]
    · simp [meaningB, hn, hc]
  | _ :: _ :: _ :: _ => simp [meaningB]

theorem scriptsOf_snoc_some (w : World) (l : List Stmt) (s : Stmt) (b a : Name) (h : s.name w = some a)
    (hl : named w l a = none) :
    scriptsOf w (l ++ [s]) b = if b = a then (if s.scripts w = [] then none else some (s.scripts w))
      else scriptsOf w l b := by
  unfold scriptsOf
  rw [named_snoc, h]
  by_cases hc : b = a
  · subst hc
    simp [hl]
  · rw [if_neg hc, if_neg (by simpa using fun e => hc e.symm)]; simp

/-- The meaning of what is in a directory that is imported. -/
theorem added_dir (w : World) (a : Name) (d : Dir) (p : Path) :
    added (some a) (w.comps d) p = match p with
      | [c, n] => if c = a then w.typeIn n d else none
      | _ => none := by
  match p with
  | [] => rfl
  | [_] => rfl
  | [c, n] => rfl
  | _ :: _ :: _ :: _ => rfl

theorem addName_ok {w : World} {st st' : St} {a : Name} (h : addName w st a = .ok st') :
    w.hasExtension a = false ∧ a ∉ st.names ∧ st' = { st with names := st.names ++ [a] } := by
  unfold addName at h
  by_cases h1 : w.hasExtension a = true
  · rw [if_pos h1] at h; cases h
  · rw [if_neg h1] at h
    by_cases h2 : a ∈ st.names
    · rw [if_pos h2] at h; cases h
    · rw [if_neg h2] at h
      cases h
      exact ⟨by simpa using h1, h2, rfl⟩

/-- The parts of the invariant after a statement that gives a name. -/
theorem inv_named {w : World} {done : List Stmt} {st : St} (inv : Inv w done st) {s : Stmt} {a : Name}
    (hs : s.name w = some a) (hx : w.hasExtension a = false) (ha : a ∉ st.names) (types : List (Path × File))
    (js : List (Option Name × List File))
    (ht : ∀ p, lookup types p = meaningB w (done ++ [s]) st.baseImported p)
    (hj : ∀ b, lookup js (some b) = scriptsOf w (done ++ [s]) b) :
    Inv w (done ++ [s]) { st with names := st.names ++ [a], types := types, js := js } := by
  have hno : ∀ p, s.target = .uri p → isBase p = false ∧ extension w p = none := by
    intro p hp
    unfold Stmt.name at hs
    rw [hp] at hs
    simp only at hs
    split at hs
    · cases hs
    · rename_i h
      simp only [not_or, Bool.not_eq_true, Option.isSome_eq_false_iff, Option.isNone_iff_eq_none] at h
      exact h
  refine ⟨ht, ?_, ?_, ?_, hj, fun x => ?_, ?_⟩
  · simp [inv.names, List.filterMap_append, hs]
  · simp only
    rw [List.nodup_append]
    refine ⟨inv.nodup, by simp, fun x hx' y hy => ?_⟩
    simp at hy
    subst hy
    exact fun e => ha (e ▸ hx')
  · intro n hn
    simp only [List.mem_append, List.mem_singleton] at hn
    rcases hn with hn | rfl
    · exact inv.noExt n hn
    · exact hx
  · simp only
    rw [inv.exts]
    constructor
    · rintro ⟨s', h1, h2⟩; exact ⟨s', List.mem_append_left _ h1, h2⟩
    · rintro ⟨s', h1, p, h2, h3, h4⟩
      rcases List.mem_append.1 h1 with h1 | h1
      · exact ⟨s', h1, p, h2, h3, h4⟩
      · simp at h1
        subst h1
        rw [(hno p h2).2] at h4
        cases h4
  · simp only
    rw [inv.base]
    constructor
    · rintro ⟨s', h1, h2⟩; exact ⟨s', List.mem_append_left _ h1, h2⟩
    · rintro ⟨s', h1, p, h2, h3⟩
      rcases List.mem_append.1 h1 with h1 | h1
      · exact ⟨s', h1, p, h2, h3⟩
      · simp at h1
        subst h1
        rw [(hno p h2).1] at h3
        cases h3

/-- The same for one that gives none. -/
theorem inv_unnamed {w : World} {done : List Stmt} {st : St} (inv : Inv w done st) {s : Stmt}
    (hs : s.name w = none) (types : List (Path × File)) (js : List (Option Name × List File)) (exts : List Name)
    (b : Bool) (ht : ∀ p, lookup types p = meaningB w done b p)
    (hj : ∀ a, lookup js (some a) = scriptsOf w done a)
    (he : ∀ x, x ∈ exts ↔ x ∈ st.exts ∨ ∃ p, s.target = .uri p ∧ isBase p = false ∧ extension w p = some x)
    (hb : b = true ↔ st.baseImported = true ∨ ∃ p, s.target = .uri p ∧ isBase p = true) :
    Inv w (done ++ [s]) { types := types, js := js, exts := exts, names := st.names, baseImported := b } := by
  refine ⟨fun p => ?_, ?_, inv.nodup, inv.noExt, fun a => ?_, fun x => ?_, ?_⟩
  · simp only
    rw [ht, meaningB_snoc_none w done s b p hs]
  · simp [inv.names, List.filterMap_append, hs]
  · simp only
    rw [hj, scriptsOf_snoc_none w done s a hs]
  · simp only
    rw [he, inv.exts]
    simp only [List.mem_append, List.mem_singleton, or_and_right, exists_or, exists_eq_left]
  · simp only
    rw [hb, inv.base]
    simp only [List.mem_append, List.mem_singleton, or_and_right, exists_or, exists_eq_left]

theorem inv_collect {w : World} {done : List Stmt} {st : St} (inv : Inv w done st) {s : Stmt} {a : Name} {d : Dir}
    (hs : s.name w = some a) (hx : w.hasExtension a = false) (ha : a ∉ st.names) (hd : s.dir w = some d)
    (hi : s.item w = none) (hsc : s.scripts w = w.jsFiles d) :
    Inv w (done ++ [s]) (collectAll w { st with names := st.names ++ [a] } d (some a)) := by
  have hn : named w done a = none := named_none (by rw [← inv.names]; exact ha)
  have hjs : lookup st.js (some a) = none := by
    rw [inv.js, scriptsOf, hn]; rfl
  refine inv_named inv hs hx ha _ _ (fun p => ?_) (fun b => ?_)
  · show lookup (collectTypes st.types (some a) (w.comps d)) p = _
    rw [lookup_collect]
    rw [inv.types, meaningB_snoc_some w done s _ p a hs hn, hi, hd, added_dir]
    match p with
    | [] => simp
    | [n] => simp
    | _ :: _ :: _ :: _ => simp
    | [c, n] =>
      rw [if_neg (by simp)]
      simp only
      by_cases hc : c = a
      · subst hc
        rw [if_pos rfl, if_pos rfl]
        have : meaningB w done st.baseImported [c, n] = none := by simp [meaningB, hn]
        rw [this]
        simp
      · rw [if_neg hc, if_neg hc]; simp
  · show lookup (addJs st.js (some a) (w.jsFiles d)) (some b) = _
    rw [lookup_addJs _ _ _ _ hjs, scriptsOf_snoc_some w done s b a hs hn, hsc, inv.js]
    by_cases hb : b = a
    · simp [hb]
    · simp [hb]

/-- One import. -/
theorem step_inv {w : World} {done : List Stmt} {st st' : St} {s : Stmt} (inv : Inv w done st)
    (h : handleImport w st s = .ok st')
    (hk : ∀ p, s.target = .uri p → isBase p = true ∨ extension w p = none → lookup st.types p = none) :
    Inv w (done ++ [s]) st' := by
  unfold handleImport at h
  cases ht : s.target with
  | uri p =>
    rw [ht] at h
    simp only at h
    by_cases hb : isBase p = true
    · rw [if_pos hb] at h
      have hname : s.name w = none := by
        unfold Stmt.name
        rw [ht]
        simp [hb]
      by_cases h1 : s.version = some false
      · rw [if_pos h1] at h; cases h
      · rw [if_neg h1] at h
        by_cases h2 : s.importId.isSome = true
        · rw [if_pos h2] at h; cases h
        · rw [if_neg h2] at h
          unfold importUri at h
          by_cases h3 : (lookup st.types p).isSome = true
          · exfalso
            rw [hk p ht (Or.inl hb)] at h3
            cases h3
          · rw [if_neg h3, if_pos hb] at h
            cases hd : w.searchDirs.findSome? (fun d => w.sub d ["qbs", "base"]) with
            | none => rw [hd] at h; cases h
            | some d =>
              rw [hd] at h
              cases h
              refine inv_unnamed inv hname _ _ _ true (fun q => ?_) (fun b => ?_) (fun x => ?_) ?_
              · show lookup (collectTypes st.types none (w.comps d)) q = _
                rw [lookup_collect, inv.types]
                have hd' : w.importDir ["qbs", "base"] = some d := hd
                match q with
                | [] => simp [meaningB, added]
                | [_, _] => simp [meaningB, added]
                | _ :: _ :: _ :: _ => simp [meaningB, added]
                | [n] =>
                  have : added none (w.comps d) [n] = w.typeIn n d := rfl
                  rw [this]
                  simp only [meaningB, hd']
                  cases st.baseImported with
                  | false => simp
                  | true =>
                    rw [Option.or_assoc]
                    congr 1
                    simp
              · show lookup (addJs st.js none (w.jsFiles d)) (some b) = _
                rw [← inv.js]
                unfold addJs
                split
                · rfl
                · rw [lookup_insert, if_neg (by simp)]
              · constructor
                · intro h; exact Or.inl h
                · rintro (h | ⟨p', hp', hb', _⟩)
                  · exact h
                  · rw [ht] at hp'; cases hp'; rw [hb] at hb'; cases hb'
              · exact ⟨fun _ => Or.inr ⟨p, ht, hb⟩, fun _ => rfl⟩
    · rw [if_neg hb] at h
      cases he : extension w p with
      | some x =>
        rw [he] at h
        simp only at h
        have hname : s.name w = none := by
          unfold Stmt.name
          rw [ht]
          simp [he]
        by_cases h2 : s.importId.isSome = true
        · rw [if_pos h2] at h; cases h
        · rw [if_neg h2] at h
          have hb' : isBase p = false := by simpa using hb
          have hbase : st.baseImported = true ↔
              st.baseImported = true ∨ ∃ q, s.target = .uri q ∧ isBase q = true := by
            constructor
            · intro h; exact Or.inl h
            · rintro (h | ⟨q, hq, hq'⟩)
              · exact h
              · rw [ht] at hq; cases hq; rw [hb'] at hq'; cases hq'
          by_cases hm : x ∈ st.exts
          · rw [if_pos hm] at h
            cases h
            refine inv_unnamed inv hname st.types st.js st.exts st.baseImported inv.types inv.js (fun y => ?_) hbase
            constructor
            · intro h; exact Or.inl h
            · rintro (h | ⟨q, hq, _, hx⟩)
              · exact h
              · rw [ht] at hq; cases hq; rw [he] at hx; cases hx; exact hm
          · rw [if_neg hm] at h
            cases h
            refine inv_unnamed inv hname st.types st.js _ st.baseImported inv.types inv.js (fun y => ?_) hbase
            rw [List.mem_append, List.mem_singleton]
            constructor
            · rintro (h | rfl)
              · exact Or.inl h
              · exact Or.inr ⟨p, ht, hb', he⟩
            · rintro (h | ⟨q, hq, _, hx⟩)
              · exact Or.inl h
              · rw [ht] at hq; cases hq; rw [he] at hx; cases hx; exact Or.inr rfl
      | none =>
        rw [he] at h
        simp only at h
        cases ha : s.importId.or p.getLast? with
        | none => rw [ha] at h; cases h
        | some a =>
          rw [ha] at h
          simp only at h
          have hname : s.name w = some a := by
            unfold Stmt.name
            rw [ht]
            simp only [hb, he, Option.isSome_none, Bool.false_eq_true, or_self, if_false]
            exact ha
          cases hn : addName w st a with
          | error e => rw [hn] at h; cases h
          | ok st1 =>
            rw [hn] at h
            simp only at h
            obtain ⟨hx, hm, rfl⟩ := addName_ok hn
            unfold importUri at h
            by_cases h3 : (lookup st.types p).isSome = true
            · rw [hk p ht (Or.inr he)] at h3; cases h3
            · rw [if_neg h3, if_neg hb] at h
              cases hd : w.searchDirs.findSome? (fun d => w.sub d p) with
              | none => rw [hd] at h; cases h
              | some d =>
                rw [hd] at h
                cases h
                have hd' : w.importDir p = some d := hd
                refine inv_collect inv hname hx hm ?_ ?_ ?_
                · unfold Stmt.dir; rw [ht]; exact hd'
                · unfold Stmt.item; rw [ht]
                · unfold Stmt.scripts; rw [ht]; simp [hd']
  | file nm =>
    rw [ht] at h
    simp only at h
    cases ha : s.importId with
    | none => rw [ha] at h; cases h
    | some a =>
      rw [ha] at h
      simp only at h
      have hname : s.name w = some a := by
        unfold Stmt.name
        rw [ht]
        exact ha
      cases hn : addName w st a with
      | error e => rw [hn] at h; cases h
      | ok st1 =>
        rw [hn] at h
        simp only at h
        obtain ⟨hx, hm, rfl⟩ := addName_ok hn
        have hno : named w done a = none := named_none (by rw [← inv.names]; exact hm)
        have hjs : lookup st.js (some a) = none := by
          rw [inv.js, scriptsOf, hno]; rfl
        unfold importFile at h
        cases hf : w.file nm with
        | none => rw [hf] at h; cases h
        | some k =>
          rw [hf] at h
          cases k with
          | other => cases h
          | dir d =>
            cases h
            refine inv_collect inv hname hx hm ?_ ?_ ?_
            · unfold Stmt.dir; rw [ht]; simp [hf]
            · unfold Stmt.item; rw [ht]; simp [hf]
            · unfold Stmt.scripts; rw [ht]; simp [hf]
          | js f =>
            cases h
            have hi : s.item w = none := by unfold Stmt.item; rw [ht]; simp [hf]
            have hd : s.dir w = none := by unfold Stmt.dir; rw [ht]; simp [hf]
            have hsc : s.scripts w = [f] := by unfold Stmt.scripts; rw [ht]; simp [hf]
            refine inv_named inv hname hx hm _ _ (fun p => ?_) (fun b => ?_)
            · rw [inv.types, meaningB_snoc_some w done s _ p a hname hno, hi, hd]
              match p with
              | [] => simp
              | [n] => simp
              | _ :: _ :: _ :: _ => simp
              | [c, n] =>
                by_cases hc : c = a
                · subst hc; simp [meaningB, hno]
                · simp [hc]
            · simp only
              rw [lookup_addJs _ _ _ _ hjs, scriptsOf_snoc_some w done s b a hname hno, hsc, inv.js]
              by_cases hb : b = a
              · simp [hb]
              · simp [hb]
          | qbs f =>
            cases h
            have hi : s.item w = some f := by unfold Stmt.item; rw [ht]; simp [hf]
            have hd : s.dir w = none := by unfold Stmt.dir; rw [ht]; simp [hf]
            have hsc : s.scripts w = [] := by unfold Stmt.scripts; rw [ht]; simp [hf]
            refine inv_named inv hname hx hm _ _ (fun p => ?_) (fun b => ?_)
            · simp only
              rw [lookup_insert, inv.types, meaningB_snoc_some w done s _ p a hname hno, hi, hd]
              by_cases hp : p = [a]
              · rw [if_pos hp, if_pos hp]; rfl
              · rw [if_neg hp, if_neg hp]
                match p with
                | [] => simp
                | [n] => simp
                | _ :: _ :: _ :: _ => simp
                | [c, n] =>
                  by_cases hc : c = a
                  · subst hc; simp [meaningB, hno]
                  · simp [hc]
            · simp only
              rw [scriptsOf_snoc_some w done s b a hname hno, hsc, inv.js]
              by_cases hb : b = a
              · subst hb; simp [scriptsOf, hno]
              · simp [hb]

end Verif.Imports
