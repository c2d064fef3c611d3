import Verif.LexOut.Model

/-! # What flex does -/

namespace Verif.LexOut

/-- The value of the last setting with a name, or `init`. -/
def lastValue (key : Str) (init : Option Str) (l : List Setting) : Option Str :=
  (l.filter (fun s => s.name = key)).getLast?.elim init Setting.value

/-- The file that flex writes in the working directory `cwd`: settings in the input, wherever they are, win over arguments. Without a
file name, the prefix, which is `yy` by default, makes up the name. -/
def flexWrites (cwd : Str) (args : Option Str × Option Str) (settings : List Setting) : Str :=
  let f := (lastValue kOutfile args.1 settings).getD
    ("lex.".toList ++ (lastValue kPrefix args.2 settings).getD "yy".toList ++ ".c".toList)
  if Verif.Path.isAbsolute f then f else cwd ++ '/' :: f

/-- The file that lex writes for an input when it is called as the rule says; the working directory is `outputDir`
(lexyacc.js 155). -/
def written (i : Input) : Str := flexWrites i.outDir (arguments i) i.lines.flatten

/-- The prefix of the symbols in the output that lex writes for an input. -/
def symbolPrefix (i : Input) : Str := (lastValue kPrefix (arguments i).2 i.lines.flatten).getD "yy".toList

end Verif.LexOut
