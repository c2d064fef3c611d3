import Verif.CMakeExport.Scan

/-! # The commands of the whole file -/

namespace Verif.CMakeExport

/-- The lines are read as the commands. -/
def Scans (ls : List CText) (cs : List Cmd) : Prop := ∀ d, (ls.flatMap (· ++ ['\n'])).foldl step (.top d) = .top (d ++ cs)

theorem Scans.append {a b c d} (h : Scans a b) (h' : Scans c d) : Scans (a ++ c) (b ++ d) := by
  intro x
  rw [List.flatMap_append, List.foldl_append, h x, h' (x ++ b), List.append_assoc]

theorem Scans.nil : Scans [] [] := fun d => by simp

theorem Scans.line {cmd : CText} {l : List Arg} {a : Arg} {t : CText}
    (hc : ∀ d, (cmd ++ ['(']).foldl step (.top d) = .args d cmd []) (h : ∀ a ∈ l, a.good) (ha : a.good)
    (e : t = cmd ++ ['('] ++ l.flatMap (fun a => a.text ++ [' ']) ++ (a.text ++ [')'])) : Scans [t] [(cmd, l ++ [a])] := by
  intro d
  subst e
  rw [List.flatMap_cons, List.flatMap_nil, List.append_nil]
  exact scan_line hc h ha

theorem Scans.command {cmd pkg : CText} {l : List Arg} (hc : ∀ d, (cmd ++ ['(']).foldl step (.top d) = .args d cmd [])
    (hp : Word pkg) (h : ∀ a ∈ l, a.good) :
    Scans (writeCommand pkg cmd (l.map Arg.text)) (if l = [] then [] else [(cmd, [word pkg, word "INTERFACE".toList] ++ l)]) :=
  fun _ => scan_command hc hp h

theorem Word.append {a b : CText} (h : Word a) (h' : Word b) : Word (a ++ b) := by
  refine ⟨by simp [h.1], fun c hc => ?_⟩
  rcases List.mem_append.mp hc with x | x
  · exact h.2 c x
  · exact h'.2 c x

/-- All arguments of the file -/
structure Args where
  loc : Option Arg
  imp : Option Arg
  dirs : List Arg
  libs : List Arg
  opts : List Arg
  incs : List Arg
  defs : List Arg
  copts : List Arg

def Args.all (a : Args) : List Arg := a.loc.toList ++ a.imp.toList ++ a.dirs ++ a.libs ++ a.opts ++ a.incs ++ a.defs ++ a.copts

def Args.data (a : Args) : Data where
  importedLocation := a.loc.map Arg.text
  importedImplibLocation := a.imp.map Arg.text
  libraryPaths := a.dirs.map Arg.text
  linkLibraries := a.libs.map Arg.text
  linkOptions := a.opts.map Arg.text
  includeDirectories := a.incs.map Arg.text
  compileDefinitions := a.defs.map Arg.text
  compileOptions := a.copts.map Arg.text

def addCmd (pkg cmd : CText) (l : List Arg) : List Cmd := if l = [] then [] else [(cmd, [word pkg, word "INTERFACE".toList] ++ l)]

def head (p : Product) : List Cmd :=
  [("cmake_minimum_required".toList, [word "VERSION".toList, word "3.5".toList]), ("if".toList, [word "TARGET".toList, word p.packageName]),
    ("return".toList, []), ("endif".toList, [])]

def setCmd (p : Product) : Cmd := ("set".toList, [word (prefixVar p), ⟨true, "${CMAKE_CURRENT_LIST_DIR}/".toList ++ p.relativePrefix⟩])

def findCmd (q : CText) : Cmd := ("find_package".toList, [word q, word "REQUIRED".toList, word "SILENT".toList])

def properties (cfg : CText) (a : Args) : List Arg :=
  [word ("IMPORTED_LINK_INTERFACE_LANGUAGES_".toList ++ cfg), word "CXX".toList] ++
    a.loc.toList.flatMap (fun l => [word ("IMPORTED_LOCATION_".toList ++ cfg), l]) ++
    a.imp.toList.flatMap (fun l => [word ("IMPORTED_IMPLIB_".toList ++ cfg), l])

def targetCmds (p : Product) (a : Args) : List Cmd :=
  [("add_library".toList, [word p.packageName, word (kind p), word "IMPORTED".toList]),
    ("set_property".toList, [word "TARGET".toList, word p.packageName, word "APPEND".toList, word "PROPERTY".toList,
      word "IMPORTED_CONFIGURATIONS".toList, word (configuration p)]),
    ("set_target_properties".toList, [word p.packageName, word "PROPERTIES".toList] ++ properties (configuration p) a)]

def listCmds (p : Product) (a : Args) : List Cmd :=
  addCmd p.packageName "target_link_directories".toList a.dirs ++
  addCmd p.packageName "target_link_libraries".toList (a.libs ++ p.packages.map word) ++
  addCmd p.packageName "target_link_options".toList a.opts ++
  addCmd p.packageName "target_include_directories".toList a.incs ++
  addCmd p.packageName "target_compile_definitions".toList a.defs ++
  addCmd p.packageName "target_compile_options".toList a.copts

theorem scans_head {p : Product} (h : Word p.packageName) :
    Scans ["# Generated by Qbs".toList, "cmake_minimum_required(VERSION 3.5)".toList, "if(TARGET ".toList ++ p.packageName ++ [')'],
      "  return()".toList, "endif()".toList] (head p) := by
  have h1 : Scans ["# Generated by Qbs".toList] [] := fun d => by rw [List.append_nil]; rfl
  have h2 : Scans ["cmake_minimum_required(VERSION 3.5)".toList]
    [("cmake_minimum_required".toList, [word "VERSION".toList, word "3.5".toList])] := fun d => rfl
  have h3 : Scans ["if(TARGET ".toList ++ p.packageName ++ [')']] [("if".toList, [word "TARGET".toList] ++ [word p.packageName])] := by
    refine Scans.line (fun d => rfl) ?_ (good_word h) ?_
    · intro a ha
      rw [List.mem_singleton] at ha
      subst ha
      exact ⟨by decide, by decide⟩
    · simp [Arg.text, word]
  have h4 : Scans ["  return()".toList, "endif()".toList] [("return".toList, []), ("endif".toList, [])] := fun d => by
    have : d ++ [(("return".toList, []) : Cmd), ("endif".toList, [])] = d ++ [("return".toList, [])] ++ [("endif".toList, [])] := by simp
    rw [this]
    rfl
  exact ((h1.append h2).append h3).append h4

theorem word_lit {s : CText} (h : (s ≠ [] ∧ ∀ c ∈ s, isWord c = true)) : Word s := h

theorem plain_no_quote {s : CText} (h : ∀ c ∈ s, isPlain c = true) : ∀ c ∈ s, c ≠ '"' ∧ c ≠ '\\' := fun c hc => by
  have := isPlain_iff (h c hc)
  exact ⟨this.1, this.2.1⟩

theorem scans_set {p : Product} (h : Word (prefixVar p)) (hr : ∀ c ∈ p.relativePrefix, isPlain c = true) :
    Scans ["set(".toList ++ prefixVar p ++ " \"${CMAKE_CURRENT_LIST_DIR}/".toList ++ p.relativePrefix ++ "\")".toList] [setCmd p] := by
  refine Scans.line (l := [word (prefixVar p)]) (fun d => rfl) ?_ ?_ ?_
  · intro a ha
    rw [List.mem_singleton] at ha
    subst ha
    exact h
  · show ∀ c ∈ _, _
    intro c hc
    rcases List.mem_append.mp hc with x | x
    · exact (by decide : ∀ c ∈ "${CMAKE_CURRENT_LIST_DIR}/".toList, c ≠ '"' ∧ c ≠ '\\') c x
    · exact plain_no_quote hr c x
  · simp [Arg.text, word, quote]

theorem scans_find {l : List CText} (h : ∀ q ∈ l, Word q) :
    Scans (l.map (fun q => "find_package(".toList ++ q ++ " REQUIRED SILENT)".toList)) (l.map findCmd) := by
  induction l with
  | nil => exact Scans.nil
  | cons q l ih =>
    refine Scans.append (a := [_]) (b := [_]) ?_ (ih fun x hx => h x (by simp [hx]))
    refine Scans.line (l := [word q, word "REQUIRED".toList]) (fun d => rfl) ?_ ⟨by decide, by decide⟩ ?_
    · intro a ha
      simp only [List.mem_cons, List.not_mem_nil, or_false] at ha
      rcases ha with rfl | rfl
      · exact h q (by simp)
      · exact ⟨by decide, by decide⟩
    · simp [Arg.text, word]

theorem scans_props {p : Product} {a : Args} (hp : Word p.packageName) (hc : Word (configuration p)) (ha : ∀ x ∈ a.all, x.good) :
    Scans (["set_target_properties(".toList ++ p.packageName ++ " PROPERTIES".toList,
      "  IMPORTED_LINK_INTERFACE_LANGUAGES_".toList ++ configuration p ++ " CXX".toList] ++
      a.loc.toList.map (fun l => "  IMPORTED_LOCATION_".toList ++ configuration p ++ [' '] ++ l.text) ++
      a.imp.toList.map (fun l => "  IMPORTED_IMPLIB_".toList ++ configuration p ++ [' '] ++ l.text) ++ [[')']])
    [("set_target_properties".toList, [word p.packageName, word "PROPERTIES".toList] ++ properties (configuration p) a)] := by
  intro d
  have e1 : ("set_target_properties(".toList ++ p.packageName ++ " PROPERTIES".toList) ++ ['\n'] =
      "set_target_properties(".toList ++ (((word p.packageName).text ++ [' ']) ++ ((word "PROPERTIES".toList).text ++ ['\n'])) := by
    simp [Arg.text, word]
  have e2 : ("  IMPORTED_LINK_INTERFACE_LANGUAGES_".toList ++ configuration p ++ " CXX".toList) ++ ['\n'] =
      "  ".toList ++ (((word ("IMPORTED_LINK_INTERFACE_LANGUAGES_".toList ++ configuration p)).text ++ [' ']) ++
        ((word "CXX".toList).text ++ ['\n'])) := by
    simp [Arg.text, word]
  have b : ∀ n as, "  ".toList.foldl step (.args d n as) = .args d n as := fun n as => rfl
  have hw : ∀ {s : CText}, (s ≠ [] ∧ ∀ c ∈ s, isWord c = true) → (word (s ++ configuration p)).good := fun h => Word.append h hc
  have opt : ∀ (key : CText) (o : Option Arg) (n : CText) (as : List Arg), (key ≠ [] ∧ ∀ c ∈ key, isWord c = true) → (∀ x ∈ o.toList, x.good) →
      ((o.toList.map (fun l => "  ".toList ++ key ++ configuration p ++ [' '] ++ l.text)).flatMap (· ++ ['\n'])).foldl step (.args d n as) =
        .args d n (as ++ o.toList.flatMap (fun l => [word (key ++ configuration p), l])) := by
    intro key o n as hk ho
    cases o with
    | none => simp
    | some l =>
      have e : (("  ".toList ++ key ++ configuration p ++ [' '] ++ l.text) ++ ['\n']) =
          "  ".toList ++ (((word (key ++ configuration p)).text ++ [' ']) ++ (l.text ++ ['\n'])) := by simp [Arg.text, word]
      simp only [Option.toList, List.map_cons, List.map_nil, List.flatMap_cons, List.flatMap_nil, List.append_nil]
      rw [e, List.foldl_append, b, List.foldl_append, scan_arg (hw hk) rfl, scan_arg (ho l (by simp)) rfl]
      simp
  have o1 := opt "IMPORTED_LOCATION_".toList a.loc
  have o2 := opt "IMPORTED_IMPLIB_".toList a.imp
  have l1 : "  ".toList ++ "IMPORTED_LOCATION_".toList = "  IMPORTED_LOCATION_".toList := rfl
  have l2 : "  ".toList ++ "IMPORTED_IMPLIB_".toList = "  IMPORTED_IMPLIB_".toList := rfl
  rw [l1] at o1
  rw [l2] at o2
  rw [List.flatMap_append, List.flatMap_append, List.flatMap_append, List.foldl_append, List.foldl_append, List.foldl_append,
    List.flatMap_cons, List.flatMap_cons, List.flatMap_nil, List.append_nil, List.foldl_append, e1, e2,
    List.foldl_append (l := "set_target_properties(".toList)]
  have s1 : "set_target_properties(".toList.foldl step (.top d) = .args d "set_target_properties".toList [] := rfl
  rw [s1, List.foldl_append (l := (word p.packageName).text ++ [' ']), scan_arg (good_word hp) rfl,
    scan_arg (a := word "PROPERTIES".toList) ⟨by decide, by decide⟩ rfl, List.foldl_append (l := "  ".toList), b,
    List.foldl_append (l := (word ("IMPORTED_LINK_INTERFACE_LANGUAGES_".toList ++ configuration p)).text ++ [' ']),
    scan_arg (hw ⟨by decide, by decide⟩) rfl, scan_arg (a := word "CXX".toList) ⟨by decide, by decide⟩ rfl,
    o1 _ _ ⟨by decide, by decide⟩ (fun x hx => ha x (by simp only [Args.all, List.mem_append]; simp [hx])),
    o2 _ _ ⟨by decide, by decide⟩ (fun x hx => ha x (by simp only [Args.all, List.mem_append]; simp [hx]))]
  simp [step, isBlank, properties]

/-- The file is read as the commands. -/
theorem commands_file {p : Product} {a : Args} (hp : Word p.packageName) (hv : Word (prefixVar p)) (hk : Word (kind p))
    (hc : Word (configuration p)) (hr : ∀ c ∈ p.relativePrefix, isPlain c = true) (hq : ∀ q ∈ p.packages, Word q)
    (ha : ∀ x ∈ a.all, x.good) (hloc : kind p = "INTERFACE".toList ↔ a.loc = none) :
    commands ((lines p a.data).flatMap (· ++ ['\n'])) =
      some (head p ++ [setCmd p] ++ p.packages.map findCmd ++ targetCmds p a ++ listCmds p a) := by
  have hall : ∀ {l : List Arg}, (∀ x ∈ l, x ∈ a.all) → ∀ x ∈ l, x.good := fun h x hx => ha x (h x hx)
  have s1 : Scans ["add_library(".toList ++ p.packageName ++ [' '] ++ kind p ++ " IMPORTED)".toList]
      [("add_library".toList, [word p.packageName, word (kind p), word "IMPORTED".toList])] := by
    refine Scans.line (l := [word p.packageName, word (kind p)]) (fun d => rfl) ?_ ⟨by decide, by decide⟩ ?_
    · intro x hx
      simp only [List.mem_cons, List.not_mem_nil, or_false] at hx
      rcases hx with rfl | rfl
      · exact hp
      · exact hk
    · simp [Arg.text, word]
  have s2 : Scans ["set_property(TARGET ".toList ++ p.packageName ++ " APPEND PROPERTY IMPORTED_CONFIGURATIONS ".toList ++ configuration p ++ [')']]
      [("set_property".toList, [word "TARGET".toList, word p.packageName, word "APPEND".toList, word "PROPERTY".toList,
        word "IMPORTED_CONFIGURATIONS".toList, word (configuration p)])] := by
    refine Scans.line (l := [word "TARGET".toList, word p.packageName, word "APPEND".toList, word "PROPERTY".toList,
      word "IMPORTED_CONFIGURATIONS".toList]) (fun d => rfl) ?_ hc ?_
    · intro x hx
      simp only [List.mem_cons, List.not_mem_nil, or_false] at hx
      rcases hx with rfl | rfl | rfl | rfl | rfl
      · exact ⟨by decide, by decide⟩
      · exact hp
      all_goals exact ⟨by decide, by decide⟩
    · simp [Arg.text, word]
  have s3 := scans_props hp hc ha
  have c1 := Scans.command (cmd := "target_link_directories".toList) (fun d => rfl) hp
    (hall (l := a.dirs) (fun x hx => by simp only [Args.all, List.mem_append]; simp [hx]))
  have c2 := Scans.command (cmd := "target_link_libraries".toList) (l := a.libs ++ p.packages.map word) (fun d => rfl) hp (by
    intro x hx
    rcases List.mem_append.mp hx with h | h
    · exact ha x (by simp only [Args.all, List.mem_append]; simp [h])
    · obtain ⟨q, hq', rfl⟩ := List.mem_map.mp h
      exact hq q hq')
  have c3 := Scans.command (cmd := "target_link_options".toList) (fun d => rfl) hp
    (hall (l := a.opts) (fun x hx => by simp only [Args.all, List.mem_append]; simp [hx]))
  have c4 := Scans.command (cmd := "target_include_directories".toList) (fun d => rfl) hp
    (hall (l := a.incs) (fun x hx => by simp only [Args.all, List.mem_append]; simp [hx]))
  have c5 := Scans.command (cmd := "target_compile_definitions".toList) (fun d => rfl) hp
    (hall (l := a.defs) (fun x hx => by simp only [Args.all, List.mem_append]; simp [hx]))
  have c6 := Scans.command (cmd := "target_compile_options".toList) (fun d => rfl) hp
    (hall (l := a.copts) (fun x hx => by simp only [Args.all, List.mem_append]; simp [hx]))
  have m : (a.libs ++ p.packages.map word).map Arg.text = a.libs.map Arg.text ++ p.packages := by
    rw [List.map_append, List.map_map]
    congr 1
    exact List.map_id'' (fun x => rfl) _
  rw [m] at c2
  have all := ((((((((((((scans_head hp).append (scans_set hv hr)).append (scans_find hq)).append s1).append s2).append s3).append c1).append
    c2).append c3).append c4).append c5).append c6)
  have el : (if kind p ≠ "INTERFACE".toList then
      ["  IMPORTED_LOCATION_".toList ++ configuration p ++ [' '] ++ (a.loc.map Arg.text).getD "undefined".toList] else []) =
      a.loc.toList.map (fun l => "  IMPORTED_LOCATION_".toList ++ configuration p ++ [' '] ++ l.text) := by
    cases h : a.loc with
    | none => rw [if_neg (by simpa using hloc.mpr h)]; rfl
    | some l => rw [if_pos (fun e => by rw [hloc.mp e] at h; cases h)]; rfl
  have ei : implibLine p (a.imp.map Arg.text) =
      a.imp.toList.map (fun l => "  IMPORTED_IMPLIB_".toList ++ configuration p ++ [' '] ++ l.text) := by
    cases a.imp <;> rfl
  have key := all []
  unfold commands lines Args.data
  simp only []
  rw [el, ei]
  simp only [List.append_assoc, List.cons_append, List.nil_append] at key ⊢
  rw [key]
  simp only [List.append_assoc, List.cons_append, List.nil_append, targetCmds, listCmds, addCmd]

end Verif.CMakeExport
