import Verif.Shell.Model
/-!
# The Makefile generator

Model of `src/plugins/generator/makefilegenerator/makefilegenerator.cpp` 60-365 for Unix hosts: the
text of the Makefile, line by line, for one project.  Left out: the writing of the file, warnings,
and Windows (where paths and commands are written differently).  A text is a list of characters, as
in `Verif.Shell.Model`.
-/
namespace Verif.Makefile

open Verif.Shell (shellQuoteUnix)

abbrev Str := List Char

/-- An `ArtifactData`, as far as it is used.  `installDir`: `installData().localInstallDir()`. -/
structure Artifact where
  path : Str
  generated : Bool := true
  executable : Bool := false
  installDir : Str := []
  deriving DecidableEq, Repr

/-- A `RuleCommand`.  The generator does not look at the working directory and the environment. -/
inductive Command where
  | js
  | process (executable : Str) (args : List Str) (workDir : Str := []) (env : List (Str × Str) := [])
  deriving DecidableEq, Repr

/-- A `TransformerData`; there is at least one output. -/
structure Transformer where
  inputs : List Artifact
  output : Artifact
  more : List Artifact := []
  commands : List Command
  deriving DecidableEq, Repr

/-- A `ProductData` and its `ProductTransformerData`. -/
structure Product where
  name : Str
  multiplexId : Str := []
  builtByDefault : Bool := true
  targets : List Artifact
  transformers : List Transformer
  installables : List Artifact := []
  generated : List Artifact
  deriving DecidableEq, Repr

/-- `installRoot` is empty if there is nothing to install. -/
structure Project where
  srcDir : Str
  buildDir : Str
  installRoot : Str := []
  products : List Product
  deriving DecidableEq, Repr

/-- `QString::replace(before, after)`: from left to right; the first argument counts the characters of
a match that are still to be skipped. -/
def replaceFrom (before after : Str) : Nat → Str → Str
  | _, [] => []
  | k + 1, _ :: s => replaceFrom before after k s
  | 0, c :: s =>
    if before.isPrefixOf (c :: s) then after ++ replaceFrom before after (before.length - 1) s
    else c :: replaceFrom before after 0 s

def replaceAll (s before after : Str) : Str := replaceFrom before after 0 s

/-- makefilegenerator.cpp 68-76, `quote`. -/
def quote (s : Str) : Str :=
  let s := shellQuoteUnix s
  let s := replaceAll s "$".toList "$$".toList
  let s := replaceAll s "$$(SRCDIR)".toList "$(SRCDIR)".toList
  let s := replaceAll s "$$(BUILD_ROOT)".toList "$(BUILD_ROOT)".toList
  replaceAll s "$$(INSTALL_ROOT)".toList "$(INSTALL_ROOT)".toList

/-- The characters that the regular expression in 84 does not match. -/
def legalChar (c : Char) : Bool :=
  c = '_' || c = '.' || ('0' ≤ c && c ≤ '9') || ('A' ≤ c && c ≤ 'Z') || ('a' ≤ c && c ≤ 'z')

/-- makefilegenerator.cpp 79-105, `makeValidTargetName` for products. -/
def productTarget (p : Product) : Str :=
  let name := p.name.map fun c => if legalChar c then c else '_'
  if p.multiplexId = [] then name else name ++ '_' :: p.multiplexId

/-- The same for paths, 88-94. -/
def pathTarget (s : Str) : Str := replaceAll s " ".toList "\\ ".toList

/-- makefilegenerator.cpp 107-120, `replacePrefix`, with one candidate. -/
def replacePrefix (path dir var : Str) : Str :=
  if dir.isPrefixOf path ∧ (path.length = dir.length ∨ (path.drop dir.length).head? = some '/') then
    "$(".toList ++ var ++ ")".toList ++ path.drop dir.length
  else path

/-- makefilegenerator.cpp 122-131, `bruteForcePathReplace`. -/
def bruteForce (p : Project) (s : Str) : Str :=
  let s := if p.installRoot = [] then s else replaceAll s p.installRoot "$(INSTALL_ROOT)".toList
  let s := replaceAll s p.buildDir "$(BUILD_ROOT)".toList
  replaceAll s p.srcDir "$(SRCDIR)".toList

/-- `QFileInfo(path).path()` and `fileName()`, for paths with a slash that is not the first character. -/
def dirOf (s : Str) : Str := ((s.reverse.dropWhile (· ≠ '/')).drop 1).reverse

def nameOf (s : Str) : Str := (s.reverse.takeWhile (· ≠ '/')).reverse

/-- makefilegenerator.cpp 202-219: the functions that put variables in the place of directories. -/
def inBuild (p : Project) (s : Str) : Str := replacePrefix s p.buildDir "BUILD_ROOT".toList

def inSource (p : Project) (s : Str) : Str := replacePrefix s p.srcDir "SRCDIR".toList

def inInstall (p : Project) (s : Str) : Str :=
  if p.installRoot = [] then s else replacePrefix s p.installRoot "INSTALL_ROOT".toList

/-- makefilegenerator.cpp 220-231. -/
def outputPath (p : Project) (a : Artifact) : Str := pathTarget (inBuild p a.path)

def inputPath (p : Project) (a : Artifact) : Str := pathTarget (inSource p a.path)

def artifactPath (p : Project) (a : Artifact) : Str :=
  if a.generated then outputPath p a else inputPath p a

/-- `mkdirCmdLine`, makefilegenerator.cpp 133-138, in a recipe. -/
def mkdirLine (dir : Str) : Str := "\tmkdir -p ".toList ++ dir

/-- Each directory once, in the order of the first file in it (`createdDirs`, makefilegenerator.cpp 255-262). -/
def onceEach : List Str → List Str → List Str
  | _, [] => []
  | seen, d :: ds => if d ∈ seen then onceEach seen ds else d :: onceEach (d :: seen) ds

/-- Words, each after a space. -/
def spaced (ws : List Str) : Str := (ws.map fun w => ' ' :: w).flatten

/-- The line of a command, makefilegenerator.cpp 266-281. -/
def commandLine? (p : Project) : Command → Option Str
  | .js => none
  | .process exe args _ _ =>
    some ('\t' :: quote (bruteForce p exe) ++ spaced (args.map fun a => quote (bruteForce p a)))

/-- makefilegenerator.cpp 283-286: each further output depends on the one before. -/
def chain (p : Project) : Artifact → List Artifact → List Str
  | _, [] => []
  | a, b :: l => (outputPath p b ++ ": ".toList ++ outputPath p a) :: chain p b l

/-- makefilegenerator.cpp 249-286: one transformer. -/
def transformerLines (p : Project) (t : Transformer) : List Str :=
  (outputPath p t.output ++ ":".toList ++ spaced (t.inputs.map (artifactPath p))) ::
  ((onceEach [] ((t.output :: t.more).map fun a => dirOf a.path)).map fun d => mkdirLine (inBuild p d)) ++
  t.commands.filterMap (commandLine? p) ++
  chain p t.output t.more

/-- makefilegenerator.cpp 308-319, the lines for one file to be installed, but for the directories. -/
def installLine (p : Project) (a : Artifact) : Str :=
  '\t' :: (if a.executable then "$(INSTALL_PROGRAM) ".toList else "$(INSTALL_FILE) ".toList) ++
    (if a.generated then inBuild p (dirOf a.path) else inSource p (dirOf a.path)) ++ '/' :: quote (nameOf a.path) ++
    ' ' :: inInstall p a.installDir

/-- makefilegenerator.cpp 294-320: a directory is made before the first file that goes there; files that go to a directory
with a space are left out, with a warning. -/
def installLines (p : Project) : List Str → List Artifact → List Str
  | _, [] => []
  | seen, a :: l =>
    if ' ' ∈ a.installDir then installLines p seen l
    else if a.installDir ∈ seen then installLine p a :: installLines p seen l
    else mkdirLine (inInstall p a.installDir) :: installLine p a :: installLines p (a.installDir :: seen) l

/-- makefilegenerator.cpp 322-331, one file. -/
def cleanLine (p : Project) (a : Artifact) : Str :=
  "\t$(RM) ".toList ++ inBuild p (dirOf a.path) ++ '/' :: quote (nameOf a.path)

/-- makefilegenerator.cpp 235-332: one product. -/
def productLines (p : Project) (d : Product) : List Str :=
  (productTarget d ++ ":".toList ++ spaced (d.targets.map (outputPath p))) ::
  d.transformers.flatMap (transformerLines p) ++
  ("install-".toList ++ productTarget d ++ ": ".toList ++ productTarget d) ::
  installLines p [] d.installables ++
  ("clean-".toList ++ productTarget d ++ ":".toList) :: d.generated.map (cleanLine p)

/-- makefilegenerator.cpp 172-201: the beginning. -/
def header (p : Project) : List Str :=
  ["# This file was generated by qbs".toList, [],
   "INSTALL_FILE = install -m 644 -p".toList,
   "INSTALL_PROGRAM = install -m 755 -p".toList,
   "RM = rm -f".toList, [],
   "SRCDIR = ".toList ++ p.srcDir,
   "BUILD_ROOT = ".toList ++ p.buildDir] ++
  (if p.installRoot = [] then [] else ["INSTALL_ROOT = ".toList ++ p.installRoot]) ++
  [[], "all:".toList]

/-- makefilegenerator.cpp 334-345: the end. -/
def footer (p : Project) : List Str :=
  let byDefault := p.products.filter (·.builtByDefault)
  ["all:".toList ++ spaced (byDefault.map productTarget),
   "install:".toList ++ spaced (byDefault.map fun d => "install-".toList ++ productTarget d),
   "clean:".toList ++ spaced (p.products.map fun d => "clean-".toList ++ productTarget d)]

/-- makefilegenerator.cpp 157-362, `generate`: the lines of the file, or an error because of spaces
(180-198). -/
def generate (p : Project) : Option (List Str) :=
  if ' ' ∈ p.srcDir ∨ ' ' ∈ p.buildDir ∨ ' ' ∈ p.installRoot then none
  else some (header p ++ p.products.flatMap (productLines p) ++ footer p)

end Verif.Makefile
