import Verif.ProtoOut.Model

/-! # What protoc does -/

namespace Verif.ProtoOut

/-- protoc, called with the directories `paths` and the output directory `out` for the file `name` in the directory `input`, writes
the file `f`. It looks for the first of the directories that the input is in, and repeats the path from there below `out`, with
`suffix` (such as `.pb.h`) in place of `.proto`. -/
def Writes (paths : List Dir) (out input : Dir) (name suffix : Str) (f : Dir) : Prop :=
  ∃ (before : List Dir) (p : Dir) (after : List Dir) (rest : Dir) (stem : Str),
    paths = before ++ p :: after ∧ (∀ q ∈ before, ¬ q <+: input) ∧ input = p ++ rest ∧ name = stem ++ ".proto".toList ∧
    f = out ++ rest ++ [stem ++ suffix]

/-- Names of directories are not `..` -/
def Names (d : Dir) : Prop := ∀ n ∈ d, n ≠ "..".toList

end Verif.ProtoOut
