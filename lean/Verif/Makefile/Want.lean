import Verif.Makefile.Model
import Verif.Makefile.Spec
/-!
# What the Makefile of a project should say

In terms of the project: real paths, and commands as lists of arguments.
-/
namespace Verif.Makefile.Spec

open Verif.Makefile

/-- Characters that mean themselves to make and to the shell wherever they stand. -/
def plainChar (c : Char) : Prop :=
  c ≠ ' ' ∧ c ≠ '\'' ∧ c ≠ '\\' ∧ c ∉ Verif.Shell.Spec.posixSpecial ∧ c ∉ nameSpecial

instance : DecidablePred plainChar := fun _ => by unfold plainChar; infer_instance

/-- An absolute directory, all of whose characters are plain. -/
def PlainDir (d : Str) : Prop := d.head? = some '/' ∧ ∀ c ∈ d, plainChar c

/-- A name for make: there may be spaces and quotes in it. -/
def PlainName (s : Str) : Prop := s ≠ [] ∧ '$' ∉ s ∧ ∀ c ∈ s, c ∉ nameSpecial

/-- A text in a command: no line break, and none of the three references to variables. -/
def PlainText (s : Str) : Prop :=
  '\n' ∉ s ∧ ¬ "$(SRCDIR)".toList <:+: s ∧ ¬ "$(BUILD_ROOT)".toList <:+: s ∧ ¬ "$(INSTALL_ROOT)".toList <:+: s

/-- A file in a directory that is plain. -/
def PlainFile (s : Str) : Prop :=
  ∃ d n, s = d ++ '/' :: n ∧ '/' ∉ n ∧ PlainDir d ∧ PlainText n ∧ n ≠ []

/-- Characters that make takes for itself at the beginning of a command. -/
def PlainCommand : Command → Prop
  | .js => True
  | .process exe args _ _ =>
    exe.head? ≠ some '@' ∧ exe.head? ≠ some '-' ∧ exe.head? ≠ some '+' ∧ PlainText exe ∧ ∀ a ∈ args, PlainText a

/-- Letters, digits, dots and underscores. -/
def wordChar (c : Char) : Prop :=
  c = '_' ∨ c = '.' ∨ ('0' ≤ c ∧ c ≤ '9') ∨ ('A' ≤ c ∧ c ≤ 'Z') ∨ ('a' ≤ c ∧ c ≤ 'z')

structure PlainTransformer (t : Transformer) : Prop where
  inputs : ∀ a ∈ t.inputs, PlainName a.path
  outputs : ∀ a ∈ t.output :: t.more, PlainName a.path ∧ PlainFile a.path
  commands : ∀ c ∈ t.commands, PlainCommand c

structure PlainProduct (d : Product) : Prop where
  name : d.name ≠ []
  multiplexId : ∀ c ∈ d.multiplexId, legalChar c = true
  targets : ∀ a ∈ d.targets, PlainName a.path
  transformers : ∀ t ∈ d.transformers, PlainTransformer t
  installables : ∀ a ∈ d.installables, PlainFile a.path ∧ (' ' ∈ a.installDir ∨ PlainDir a.installDir)
  generated : ∀ a ∈ d.generated, PlainFile a.path

structure Plain (p : Project) : Prop where
  srcDir : PlainDir p.srcDir
  buildDir : PlainDir p.buildDir
  installRoot : p.installRoot = [] ∨ PlainDir p.installRoot
  products : ∀ d ∈ p.products, PlainProduct d

/-- The arguments of a command that make can run. -/
def argv? : Command → Option (List Str)
  | .js => none
  | .process exe args _ _ => some (exe :: args)

def mkdir (d : Str) : List Str := ["mkdir".toList, "-p".toList, d]

/-- Every further output needs the one before, and nothing has to be done for it. -/
def wantChain : Artifact → List Artifact → List Rule
  | _, [] => []
  | a, b :: l => ⟨b.path, [a.path], []⟩ :: wantChain b l

/-- The first output of a transformer is made from its inputs, after the directories of all its outputs
have been made. -/
def wantTransformer (t : Transformer) : List Rule :=
  ⟨t.output.path, t.inputs.map (·.path),
    (((t.output :: t.more).map fun a => dirOf a.path).eraseDups.map mkdir) ++ t.commands.filterMap argv?⟩ ::
  wantChain t.output t.more

def installCommand (a : Artifact) : List Str :=
  ["install".toList, "-m".toList, (if a.executable then "755" else "644").toList, "-p".toList, a.path, a.installDir]

/-- The directory is made before the first file goes there.  Nothing goes to a directory with a space in
its name. -/
def wantInstall : List Str → List Artifact → List (List Str)
  | _, [] => []
  | seen, a :: l =>
    if ' ' ∈ a.installDir then wantInstall seen l
    else if a.installDir ∈ seen then installCommand a :: wantInstall seen l
    else mkdir a.installDir :: installCommand a :: wantInstall (a.installDir :: seen) l

def wantProduct (d : Product) : List Rule :=
  ⟨productTarget d, d.targets.map (·.path), []⟩ ::
  d.transformers.flatMap wantTransformer ++
  ⟨"install-".toList ++ productTarget d, [productTarget d], wantInstall [] d.installables⟩ ::
  [⟨"clean-".toList ++ productTarget d, [], d.generated.map fun a => ["rm".toList, "-f".toList, a.path]⟩]

/-- The rules of the Makefile of a project. -/
def want (p : Project) : List Rule :=
  ⟨"all".toList, [], []⟩ :: p.products.flatMap wantProduct ++
  [⟨"all".toList, (p.products.filter (·.builtByDefault)).map productTarget, []⟩,
   ⟨"install".toList, (p.products.filter (·.builtByDefault)).map fun d => "install-".toList ++ productTarget d, []⟩,
   ⟨"clean".toList, p.products.map fun d => "clean-".toList ++ productTarget d, []⟩]

end Verif.Makefile.Spec
