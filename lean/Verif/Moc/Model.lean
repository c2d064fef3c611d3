/-
Running the meta-object compiler (`moc`) for a product that uses Qt: the scanner that looks for
`Q_OBJECT`, the two rules, and what happens to their decisions when files change between builds.

Sources modelled:
  src/plugins/scanner/qt-moc/qtmocscanner.cpp 60-81, 99-187
  src/lib/corelib/cppscanner/cppscanner.cpp 249-268
  src/lib/corelib/buildgraph/mocutils.cpp 61-98
  src/lib/corelib/buildgraph/rulenode.cpp 79-244, 286-300, 329-348
  src/lib/corelib/buildgraph/rulesapplicator.cpp 323-374
  src/lib/corelib/buildgraph/inputartifactscanner.cpp 305-333, 457-477
  src/lib/corelib/jsextensions/moduleproperties.cpp 277-310
  src/lib/corelib/buildgraph/buildgraph.cpp 701-713, 777-793
  share/qbs/module-providers/Qt/templates/moc.js 87-137
  share/qbs/module-providers/Qt/templates/core.qbs 329-335, 363-388
-/
namespace Verif.Moc

abbrev Str := List Char

/-- What the C++ scanner finds in a file: one of the macros that ask for `moc`, the macro for
plugin meta data, and the include directives.  The tokenizer of the scanner is in
`Verif.Scan`/`Verif.Cpp`; here its results are given. -/
structure Content where
  qmacro : Bool
  plugin : Bool
  includes : List Str
  deriving DecidableEq, Repr

/-- A source file of the product: its file tags, in the order in which they are joined, its name
without directory and last suffix, and its content. -/
structure File where
  tags : List Str
  base : Str
  content : Content
  deriving DecidableEq, Repr

/-- `QStringList::join(',')` (inputartifactscanner.cpp 465-466). -/
def join : List Str → Str
  | [] => []
  | [t] => t
  | t :: ts => t ++ ',' :: join ts

/-- `QByteArray::split(',')` (cppscanner.cpp 257-258). -/
def splitFrom : Str → Str → List Str
  | acc, [] => [acc]
  | acc, c :: l => if c = ',' then acc :: splitFrom [] l else splitFrom (acc ++ [c]) l

def split (s : Str) : List Str := splitFrom [] s

/-- `QString::replace(before, after)`: all occurrences that do not overlap, from the left
(qtmocscanner.cpp 102-103).  The number counts the characters of an occurrence that are still to be
dropped. -/
def replaceFrom (pat rep : Str) : Nat → Str → Str
  | _, [] => []
  | k + 1, _ :: l => replaceFrom pat rep k l
  | 0, c :: l =>
    if pat.isPrefixOf (c :: l) then rep ++ replaceFrom pat rep (pat.length - 1) l
    else c :: replaceFrom pat rep 0 l

def replace (pat rep s : Str) : Str := replaceFrom pat rep 0 s

/-- `QString::contains(text)`: the text occurs anywhere (qtmocscanner.cpp 124-163). -/
def has (pat : Str) : Str → Bool
  | [] => pat.isPrefixOf []
  | c :: l => pat.isPrefixOf (c :: l) || has pat l

def sHpp : Str := ['h','p','p']
def sCpp : Str := ['c','p','p']
def sCppm : Str := ['c','p','p','m']
def sObjcpp : Str := ['o','b','j','c','p','p']
def sCppCombine : Str := ['c','p','p','.','c','o','m','b','i','n','e']
def sObjcppCombine : Str := ['o','b','j','c','p','p','.','c','o','m','b','i','n','e']
def sMocable : Str := ['m','o','c','a','b','l','e']
def sUnmocable : Str := ['u','n','m','o','c','a','b','l','e']
def sMocCpp : Str := ['m','o','c','_','c','p','p']
def sMocPrefix : Str := ['m','o','c','_']
def sCppSuffix : Str := ['.','c','p','p']
def sMocSuffix : Str := ['.','m','o','c']
def sH : Str := ['.','h']
def sData : Str := ['.','d','a','t','a']
def sJson : Str := ['.','j','s','o','n']
def sMetatypes : Str :=
  ['q','t','.','c','o','r','e','.','m','e','t','a','t','y','p','e','s','.','i','n']

/-- `normalizedMocScanTags` (qtmocscanner.cpp 99-105).  The conversion to Latin-1 is left out. -/
def normalized (tags : Str) : Str :=
  replace sObjcppCombine sObjcpp (replace sCppCombine sCpp tags)

inductive FileType where
  | hpp | cpp | cppm | objcpp | unknown
  deriving DecidableEq, Repr

/-- The type of the file, from the list of tags (cppscanner.cpp 257-268). -/
def fileType (tags : Str) : FileType :=
  let l := split tags
  if sHpp ∈ l then .hpp
  else if sCpp ∈ l then .cpp
  else if sCppm ∈ l then .cppm
  else if sObjcpp ∈ l then .objcpp
  else .unknown

/-- The tags that only the scanner itself sees. -/
inductive MocTag where
  | mocCpp | mocHpp | mocCppPlugin | mocHppPlugin
  deriving DecidableEq, Repr

/-- `additionalFileTags` (qtmocscanner.cpp 60-81). -/
def additionalTag (c : Content) (ft : FileType) : Option MocTag :=
  if c.qmacro then
    match ft with
    | .cpp | .cppm | .objcpp => some (if c.plugin then .mocCppPlugin else .mocCpp)
    | .hpp => some (if c.plugin then .mocHppPlugin else .mocHpp)
    | .unknown => none
  else none

/-- `QFileInfo::fileName`: what follows the last slash (qtmocscanner.cpp 171). -/
def fileNameFrom : Str → Str → Str
  | acc, [] => acc
  | acc, c :: l => if c = '/' then fileNameFrom [] l else fileNameFrom (acc ++ [c]) l

def fileName (p : Str) : Str := fileNameFrom [] p

/-- The base name in an include of generated code (qtmocscanner.cpp 171-178). -/
def mocName (p : Str) : Option Str :=
  let n := fileName p
  if sMocPrefix.isPrefixOf n && sCppSuffix.isSuffixOf n then
    some ((n.take (n.length - 4)).drop 4)
  else none

/-- The properties that the scanner records. -/
structure Scan where
  qobject : Bool
  plugin : Bool
  included : List Str
  deriving DecidableEq, Repr

/-- The moc scanner on a file that can be read (qtmocscanner.cpp 107-187). -/
def scanFile (f : File) : Scan :=
  let tags := normalized (join f.tags)
  let tag :=
    match additionalTag f.content (fileType tags) with
    | some t => some t
    | none =>
      if has sMocable tags then
        if has sHpp tags then some .mocHpp
        else if has sCpp tags || has sCppm tags || has sObjcpp tags then some .mocCpp
        else none
      else none
  let isHeader := has sHpp tags
  let qobject :=
    if isHeader then tag == some .mocHpp || tag == some .mocHppPlugin
    else tag == some .mocCpp || tag == some .mocCppPlugin
  let pluginTag :=
    if isHeader then tag == some .mocHppPlugin else tag == some .mocCppPlugin
  let isCppSource := has sCpp tags || has sCppm tags || has sObjcpp tags
  { qobject := qobject
    plugin := f.content.plugin || pluginTag
    included := if isCppSource then f.content.includes.filterMap mocName else [] }

/-- The properties of the product and of the Qt module that the rules look at. -/
structure Cfg where
  combineCxx : Bool
  combineObjcxx : Bool
  combineMoc : Bool
  modules : Bool
  metaTypes : Bool
  deriving DecidableEq, Repr

/-- An output of a rule, with its name in the directory for generated headers. -/
structure Out where
  name : Str
  tags : List Str
  deriving DecidableEq, Repr

/-- `outputArtifacts` with `mocInformation` (moc.js 87-137).  There is no entry in `qbsScanners`
when the file was not scanned or the scanner found nothing (moduleproperties.cpp 277-310); in the
second case the properties in the model are all false.  Dependencies on plugin meta data are left
out. -/
def outputs (cfg : Cfg) (f : File) (info : Option Scan) (included : List Str) : List Out :=
  match info with
  | none => []
  | some sc =>
    if sc.qobject then
      if sHpp ∈ f.tags then
        let mustCompile := !(included.contains f.base)
        let name := sMocPrefix ++ f.base ++ sCppSuffix
        ⟨name, [sUnmocable, if mustCompile then (if cfg.combineMoc then sMocCpp else sCpp) else sHpp]⟩
          :: (if cfg.metaTypes then [⟨name ++ sJson, [sMetatypes]⟩] else [])
      else
        let name := f.base ++ sMocSuffix
        ⟨name, [sUnmocable, sHpp]⟩
          :: (if cfg.modules then
                [⟨name ++ sH, [sUnmocable, sHpp]⟩, ⟨name ++ sData, [sUnmocable, sHpp]⟩] else [])
          ++ (if cfg.metaTypes then [⟨name ++ sJson, [sMetatypes]⟩] else [])
    else []

/-- The two rules (core.qbs 365-387). -/
inductive Rule where
  | cpp | hpp
  deriving DecidableEq, Repr

/-- The inputs of the rules (core.qbs 367-371, 379-381; rulenode.cpp 286-300). -/
def input (cfg : Cfg) (r : Rule) (f : File) : Bool :=
  (match r with
   | .cpp =>
     f.tags.contains (if cfg.combineObjcxx then sObjcppCombine else sObjcpp)
       || f.tags.contains (if cfg.combineCxx then sCppCombine else sCpp)
       || f.tags.contains sCppm
   | .hpp => f.tags.contains sHpp)
  && !(f.tags.contains sUnmocable)

/-- The auxiliary inputs of the rules among the source files
(core.qbs 370, 380; rulesapplicator.cpp 323-344). -/
def auxiliary (r : Rule) (f : File) : Bool :=
  (match r with
   | .cpp => false
   | .hpp => f.tags.contains sCpp || f.tags.contains sObjcpp)
  && !(f.tags.contains sUnmocable)

/-- A file in the build graph: the stored result of the scanner, whether the file is newer than
that, and for each rule whether the file is new or changed since the last time the rule was applied,
and what the rule created for it. -/
structure Entry where
  file : File
  scan : Option Scan
  stale : Bool
  fresh : Rule → Bool
  out : Rule → List Out

/-- The scanner runs only if the file is newer than the last scan
(inputartifactscanner.cpp 322-331).  The results are stored for the path of the file: a change of
the file tags does not matter. -/
def scanEntry (e : Entry) : Entry :=
  if e.scan = none ∨ e.stale then { e with scan := some (scanFile e.file), stale := false } else e

/-- The tags of the files that may include generated code (mocutils.cpp 76). -/
def isSource (f : File) : Bool :=
  f.tags.contains sCpp || f.tags.contains sCppCombine || f.tags.contains sCppm
    || f.tags.contains sObjcpp || f.tags.contains sObjcppCombine

/-- `gatherIncludedMocCppBaseNames` (mocutils.cpp 61-98): from the stored results. -/
def gather (es : List Entry) : List Str :=
  es.flatMap (fun e => if isSource e.file then (match e.scan with
    | none => []
    | some sc => sc.included) else [])

/-- The inputs for which the rule is applied: new ones and changed ones
(rulenode.cpp 91-95, 108-112, 329-344). -/
def due (cfg : Cfg) (r : Rule) (e : Entry) : Bool := input cfg r e.file && e.fresh r

/-- The rule runs for an input (moc.js 105-137). -/
def run (cfg : Cfg) (r : Rule) (included : List Str) (e : Entry) : Entry :=
  { e with
    fresh := fun q => if q = r then false else e.fresh q
    out := fun q => if q = r then outputs cfg e.file e.scan included else e.out q }

/-- `RuleNode::apply` (rulenode.cpp 79-244): nothing happens without new or changed inputs;
otherwise these inputs and all auxiliary inputs are scanned, and then the rule is applied to the
inputs.  Outputs that are out of date only lead to further scans, see `Event.scan`. -/
def apply (cfg : Cfg) (r : Rule) (es : List Entry) : List Entry :=
  if es.any (due cfg r) then
    let es' := es.map (fun e => if due cfg r e || auxiliary r e.file then scanEntry e else e)
    let included := gather es'
    es'.map (fun e => if due cfg r e then run cfg r included e else e)
  else es

/-- What happens to a product.  The rules are not connected in the graph of rules, so they can be
applied in any order (rulegraph.cpp 64-75); other rules may scan files at any time.  A change of
tags makes the file a new input (buildgraph.cpp 701-713, 777-793).  When files are added or removed,
the product is set up from scratch (buildgraphloader.cpp 717-736), so that all files are new inputs
of the rules; the results of the scanner are kept, as they belong to the project. -/
inductive Event where
  | add (f : File)
  | edit (i : Nat) (c : Content)
  | retag (i : Nat) (tags : List Str)
  | remove (i : Nat)
  | scan (i : Nat)
  | apply (r : Rule)
  deriving Repr

def newEntry (f : File) : Entry :=
  { file := f, scan := none, stale := false, fresh := fun _ => true, out := fun _ => [] }

/-- The file becomes a new input of both rules. -/
def refresh (e : Entry) : Entry := { e with fresh := fun _ => true }

def step (cfg : Cfg) (es : List Entry) : Event → List Entry
  | .add f => es.map refresh ++ [newEntry f]
  | .edit i c => es.modify i (fun e =>
      { e with file := { e.file with content := c }, stale := true, fresh := fun _ => true })
  | .retag i tags => es.modify i (fun e =>
      { e with file := { e.file with tags := tags }, fresh := fun _ => true })
  | .remove i => (es.eraseIdx i).map refresh
  | .scan i => es.modify i scanEntry
  | .apply r => apply cfg r es

def steps (cfg : Cfg) (es : List Entry) (evs : List Event) : List Entry := evs.foldl (step cfg) es

end Verif.Moc
