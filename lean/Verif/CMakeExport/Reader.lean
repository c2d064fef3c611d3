/-! # A reader for the files: the language of CMake, as far as the files use it

This is part of the specification: it follows the manual of CMake (cmake-language(7) and the manual pages of the commands), not code
in /repo. Brackets, nested parentheses and generator expressions are left out. -/

namespace Verif.CMakeExport

abbrev CText := List Char

/-- An argument as it is written -/
structure Arg where
  quoted : Bool
  raw : CText
  deriving Repr, DecidableEq

abbrev Cmd := CText × List Arg

/-- The state of the scanner. The commands that are complete come first, then name and arguments of the current one. -/
inductive Scan where
  | top (done : List Cmd)
  | comment (done : List Cmd)
  | name (done : List Cmd) (n : CText)
  | args (done : List Cmd) (n : CText) (as : List Arg)
  | unquoted (done : List Cmd) (n : CText) (as : List Arg) (acc : CText)
  | quoted (done : List Cmd) (n : CText) (as : List Arg) (acc : CText)
  | escape (done : List Cmd) (n : CText) (as : List Arg) (acc : CText)
  | closed (done : List Cmd) (n : CText) (as : List Arg)
  | bad
  deriving Repr, DecidableEq

def isBlank (c : Char) : Bool := c == ' ' || c == '\n' || c == '\t'

/-- One character. After a quoted argument there must be a blank or a parenthesis. -/
def step : Scan → Char → Scan
  | .top d, c => if isBlank c then .top d else if c = '#' then .comment d else if c.isAlpha || c == '_' then .name d [c] else .bad
  | .comment d, c => if c = '\n' then .top d else .comment d
  | .name d n, c => if c = '(' then .args d n [] else if c.isAlphanum || c == '_' then .name d (n ++ [c]) else .bad
  | .args d n as, c =>
    if isBlank c then .args d n as
    else if c = ')' then .top (d ++ [(n, as)])
    else if c = '"' then .quoted d n as []
    else if c = '(' ∨ c = '#' ∨ c = '\\' then .bad
    else .unquoted d n as [c]
  | .unquoted d n as acc, c =>
    if isBlank c then .args d n (as ++ [⟨false, acc⟩])
    else if c = ')' then .top (d ++ [(n, as ++ [⟨false, acc⟩])])
    else if c = '"' ∨ c = '(' ∨ c = '#' ∨ c = '\\' then .bad
    else .unquoted d n as (acc ++ [c])
  | .quoted d n as acc, c =>
    if c = '"' then .closed d n (as ++ [⟨true, acc⟩])
    else if c = '\\' then .escape d n as acc
    else .quoted d n as (acc ++ [c])
  | .escape d n as acc, c => .quoted d n as (acc ++ ['\\', c])
  | .closed d n as, c => if isBlank c then .args d n as else if c = ')' then .top (d ++ [(n, as)]) else .bad
  | .bad, _ => .bad

/-- The commands of a file; `none`: a syntax error -/
def commands (s : CText) : Option (List Cmd) :=
  match s.foldl step (.top []) with
  | .top d => some d
  | .comment d => some d
  | _ => none

abbrev Vars := List (CText × CText)

/-- The value of a variable; variables that are not set are empty. -/
def Vars.value (vs : Vars) (n : CText) : CText := ((vs.find? (fun v => v.1 == n)).map (·.2)).getD []

/-- Escape sequences -/
def escaped (c : Char) : Option CText :=
  if c = 'n' then some ['\n'] else if c = 't' then some ['\t'] else if c = 'r' then some ['\r']
  else if c = ';' then some ['\\', ';'] else if c = '\n' then some [] else if c.isAlphanum then none else some [c]

/-- Where we are in an argument: after a backslash, after a dollar sign, or in the name of a variable -/
inductive Mode where
  | text
  | backslash
  | dollar
  | ref (name : CText)

/-- The value of an argument: escape sequences and references to variables -/
def expand (vs : Vars) : Mode → CText → Option CText
  | .text, [] => some []
  | .text, c :: s =>
    if c = '\\' then expand vs .backslash s
    else if c = '$' then expand vs .dollar s
    else (expand vs .text s).map (c :: ·)
  | .backslash, [] => none
  | .backslash, c :: s =>
    match escaped c with
    | none => none
    | some x => (expand vs .text s).map (x ++ ·)
  | .dollar, [] => some ['$']
  | .dollar, c :: s =>
    if c = '{' then expand vs (.ref []) s
    else if c = '$' then (expand vs .dollar s).map ('$' :: ·)
    else if c = '\\' then (expand vs .backslash s).map ('$' :: ·)
    else (expand vs .text s).map ('$' :: c :: ·)
  | .ref _, [] => none
  | .ref n, c :: s => if c = '}' then (expand vs .text s).map (vs.value n ++ ·) else expand vs (.ref (n ++ [c])) s

/-- The elements of a list: what is between semicolons, without empty elements -/
def elements : CText → List CText
  | [] => []
  | c :: s =>
    if c = ';' then elements s
    else
      match s, elements s with
      | [], _ => [[c]]
      | d :: _, es => if d = ';' then [c] :: es else match es with
        | [] => [[c]]
        | e :: es => (c :: e) :: es

/-- The values of the arguments of a command: unquoted arguments are lists. -/
def values (vs : Vars) : List Arg → Option (List CText)
  | [] => some []
  | a :: as =>
    match expand vs .text a.raw, values vs as with
    | some v, some r => some ((if a.quoted then [v] else elements v) ++ r)
    | _, _ => none

/-- A target. `properties` are those that are set with `set_target_properties`, and the lists are what users of the target get. -/
structure Target where
  name : CText
  kind : CText
  configurations : List CText := []
  properties : List (CText × CText) := []
  linkDirectories : List CText := []
  linkLibraries : List CText := []
  linkOptions : List CText := []
  includeDirectories : List CText := []
  compileDefinitions : List CText := []
  compileOptions : List CText := []
  deriving Repr, DecidableEq

structure Run where
  vars : Vars
  target : Option Target := none
  /-- the packages that were required -/
  packages : List CText := []
  skipping : Bool := false
  deriving Repr, DecidableEq

/-- What is there when the file is read: targets, and the variables that finding another package sets -/
structure Env where
  targets : List CText
  sets : CText → Vars

def pairs : List CText → Option (List (CText × CText))
  | [] => some []
  | a :: b :: l => (pairs l).map ((a, b) :: ·)
  | [_] => none

/-- The commands target_…: arguments are added to a list of the target. -/
def addTo (t : Target) (command : CText) (items : List CText) : Option Target :=
  let items := items.flatMap elements
  if command = "target_link_directories".toList then some { t with linkDirectories := t.linkDirectories ++ items }
  else if command = "target_link_libraries".toList then some { t with linkLibraries := t.linkLibraries ++ items }
  else if command = "target_link_options".toList then some { t with linkOptions := t.linkOptions ++ items }
  else if command = "target_include_directories".toList then some { t with includeDirectories := t.includeDirectories ++ items }
  else if command = "target_compile_definitions".toList then some { t with compileDefinitions := t.compileDefinitions ++ items }
  else if command = "target_compile_options".toList then some { t with compileOptions := t.compileOptions ++ items }
  else none

/-- The target with the given name is changed. -/
def Run.change (r : Run) (name : CText) (f : Target → Option Target) : Option Run :=
  match r.target with
  | some t => if t.name = name then (f t).map fun t => { r with target := some t } else none
  | none => none

/-- The effect of a command other than `if`, `endif` and `return` -/
def effect (e : Env) (r : Run) (command : CText) (args : List CText) : Option Run :=
  if command = "cmake_minimum_required".toList then some r
  else if command = "set".toList then
    match args with
    | [n, v] => some { r with vars := (n, v) :: r.vars }
    | _ => none
  else if command = "find_package".toList then
    match args with
    | n :: _ => some { r with vars := e.sets n ++ r.vars, packages := r.packages ++ [n] }
    | _ => none
  else if command = "add_library".toList then
    match args with
    | [n, k, i] => if i = "IMPORTED".toList ∧ r.target = none then some { r with target := some { name := n, kind := k } } else none
    | _ => none
  else if command = "set_property".toList then
    match args with
    | [t, n, a, p, c, v] =>
      if t = "TARGET".toList ∧ a = "APPEND".toList ∧ p = "PROPERTY".toList ∧ c = "IMPORTED_CONFIGURATIONS".toList then
        r.change n fun t => some { t with configurations := t.configurations ++ elements v }
      else none
    | _ => none
  else if command = "set_target_properties".toList then
    match args with
    | n :: p :: l =>
      if p = "PROPERTIES".toList then
        r.change n fun t => (pairs l).map fun ps => { t with properties := t.properties ++ ps }
      else none
    | _ => none
  else
    match args with
    | n :: i :: l => if i = "INTERFACE".toList then r.change n fun t => addTo t command l else none
    | _ => none

/-- The commands of the file are run; `none`: an error -/
def run (e : Env) : Run → List Cmd → Option Run
  | r, [] => some r
  | r, (c, as) :: cs =>
    if c = "endif".toList then run e { r with skipping := false } cs
    else if r.skipping then run e r cs
    else
      match values r.vars as with
      | none => none
      | some vs =>
        if c = "return".toList then some r
        else if c = "if".toList then
          match vs with
          | [t, n] => if t = "TARGET".toList then run e { r with skipping := !(e.targets.contains n) } cs else none
          | _ => none
        else
          match effect e r c vs with
          | none => none
          | some r' => run e r' cs

/-- The file is read. `dir` is the directory of the file. -/
def load (e : Env) (dir : CText) (text : CText) : Option Run :=
  match commands text with
  | none => none
  | some cs => run e { vars := [("CMAKE_CURRENT_LIST_DIR".toList, dir)] } cs

/-- Options of targets are de-duplicated when they are used. -/
def used (seen : List CText) : List CText → List CText
  | [] => []
  | o :: os => if o ∈ seen then used seen os else o :: used (o :: seen) os

/-- `find_package` with a version accepts a package if its version file says so. -/
def accepts (text : CText) : Option Bool :=
  (load ⟨[], fun _ => []⟩ [] text).map fun r =>
    r.vars.value "PACKAGE_VERSION_COMPATIBLE".toList == "TRUE".toList || r.vars.value "PACKAGE_VERSION_EXACT".toList == "TRUE".toList

end Verif.CMakeExport
