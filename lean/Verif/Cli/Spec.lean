import Verif.Cli.Model
/-
What a command line means, independently of how it is parsed: the names of the commands and
options and the lists of options that a command supports are taken from the model.
-/

namespace Verif.Cli.Spec

/-- What a part of the command line stands for. -/
inductive Item where
  /-- An option, with its argument if it has one. -/
  | use (o : Opt) (arg : Option Str)
  /-- `<property>:<value>`, `profile:<name>` or `config:<name>`. -/
  | assign (a : Str)
  /-- The arguments for the program that is run. -/
  | target (l : List Str)
  deriving DecidableEq

/-- The word is the short or the long name of the option. -/
def Named (o : Opt) (w : Str) : Prop := w ≠ [] ∧ (w = shortName o ∨ w = longName o)

/-- A group of short options as it is written: "-kvj4". -/
def groupWord (l : List (Char × Str)) : Str := '-' :: l.flatMap fun p => p.1 :: p.2

/-- The words that the group stands for: "-k", "-v", "-j", "4". -/
def groupWords (l : List (Char × Str)) : List Str :=
  l.flatMap fun p => ['-', p.1] :: if p.2 = [] then [] else [p.2]

/-- A group has several characters after the dash; every letter may be followed by a number. -/
structure IsGroup (l : List (Char × Str)) : Prop where
  letters : ∀ p ∈ l, p.1.isDigit = false ∧ ∀ d ∈ p.2, d.isDigit = true
  size : 2 < (groupWord l).length
  noLongName : ∀ p ∈ l.head?, p.1 ≠ '-'

/-- The word assigns a value, and the command allows it. -/
def Assignment (c : Cmd) (a : Str) : Prop :=
  ∃ k v, a = k ++ ':' :: v ∧ k ≠ [] ∧ ':' ∉ k ∧ k.head? ≠ some '-' ∧
    (Opt.file ∈ supportedOptions c ∨ k = "config".toList)

/-- The words of the command line, read from left to right. -/
inductive Reads (c : Cmd) : List Str → List Item → Prop where
  | done : Reads c [] []
  | group {l rest items} : IsGroup l → Reads c (groupWords l ++ rest) items →
      Reads c (groupWord l :: rest) items
  | flag {o w rest items} : o ∈ actualSupportedOptions c → Named o w →
      takesArgument o = false → Reads c rest items → Reads c (w :: rest) (.use o none :: items)
  | argument {o w v rest items} : o ∈ actualSupportedOptions c → Named o w →
      takesArgument o = true → Reads c rest items →
      Reads c (w :: v :: rest) (.use o (some v) :: items)
  | assign {a rest items} : Assignment c a → Reads c rest items →
      Reads c (a :: rest) (.assign a :: items)
  | target {rest} : c = .run → Reads c ("--".toList :: rest) [.target rest]

/-- How often an option is used. -/
def uses (o : Opt) (items : List Item) : Nat :=
  items.countP fun i => match i with
    | .use o' _ => o' = o
    | _ => false

/-- Only -v and -q can be repeated. -/
def Once (items : List Item) : Prop :=
  ∀ o, o ≠ .verbose → o ≠ .quiet → uses o items ≤ 1

/-- The elements of a list, separated by commas. -/
def commas : List Str → Str
  | [] => []
  | [w] => w
  | w :: ws => w ++ ',' :: commas ws

/-- A proper argument of the option. -/
def Proper (num : Str → Option Int) (o : Opt) (v : Str) : Prop :=
  match o with
  | .generator => v ≠ []
  | .jobs => ∃ n, num v = some n ∧ 0 < n
  | .changedFiles | .products | .tags | .runEnvConfig =>
    ∃ l, l ≠ [] ∧ (∀ w ∈ l, w ≠ [] ∧ ',' ∉ w) ∧ v = commas l
  | .logLevel => v ∈ ["error", "warning", "info", "debug", "trace"].map String.toList
  | .commandEchoMode =>
    v ∈ ["silent", "summary", "command-line", "command-line-with-environment"].map String.toList
  | .deprecationWarnings => v ∈ ["error", "on", "before-removal", "off"].map String.toList
  | .jobLimits =>
    ∃ l : List (Str × Str), l ≠ [] ∧ v = commas (l.map fun p => p.1 ++ ':' :: p.2) ∧
      ∀ p ∈ l, p.1 ≠ [] ∧ ',' ∉ p.1 ∧ ':' ∉ p.1 ∧ p.2 ≠ [] ∧ ',' ∉ p.2 ∧ (num p.2).isSome
  | _ => True

/-- All arguments are proper. -/
def AllProper (num : Str → Option Int) (items : List Item) : Prop :=
  ∀ o v, Item.use o (some v) ∈ items → Proper num o v

/-- The options used, with their arguments. -/
def optionsOf (items : List Item) : List (Opt × Option Str) :=
  items.filterMap fun i => match i with
    | .use o a => some (o, a)
    | _ => none

/-- The assignments. -/
def assignmentsOf (items : List Item) : List Str :=
  items.filterMap fun i => match i with
    | .assign a => some a
    | _ => none

/-- The arguments for the program. -/
def targetOf (items : List Item) : List Str :=
  items.flatMap fun i => match i with
    | .target l => l
    | _ => []

/-- The commands that read options and assignments. -/
def Works (c : Cmd) : Prop := c ≠ .help ∧ c ≠ .version ∧ c ≠ .session

/-! ### Build configurations -/

/-- The assignment starts the section of a configuration. -/
def Starts (a : Str) (name : Str) : Prop :=
  a = "config:".toList ++ name ∨ a = "qbs.configurationName:".toList ++ name

/-- The full name of a property: names without a dot belong to the qbs module. -/
def fullName (k : Str) : Str := if '.' ∈ k then k else "qbs.".toList ++ k

/-- The names of the sections, in order. -/
inductive Names : List Str → List Str → Prop where
  | nil : Names [] []
  | start {a n as ns} : Starts a n → Names as ns → Names (a :: as) (n :: ns)
  | skip {a as ns} : (∀ n, ¬ Starts a n) → Names as ns → Names (a :: as) ns

/-- The elements of a list without repetitions, in the order in which they first appear. -/
def firsts : List Str → List Str
  | [] => []
  | n :: ns => n :: (firsts ns).filter (· ≠ n)

/-- `v` is the last value that the assignments give to the property, `none` if there is none. -/
inductive Last (p : Str) : List Str → Option Str → Prop where
  | nil : Last p [] none
  | hit {as k v} : ':' ∉ k → fullName k = p → Last p (as ++ [k ++ ':' :: v]) (some v)
  | miss {as k v r} : ':' ∉ k → fullName k ≠ p → Last p as r → Last p (as ++ [k ++ ':' :: v]) r

end Verif.Cli.Spec
