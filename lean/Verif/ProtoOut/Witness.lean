import Verif.ProtoOut.Props

/-! Concrete cases for the theorems. -/

namespace Verif.ProtoOut

def s (x : String) : Str := x.toList

def wOut : Dir := [s "b", s "gen"]
def wDirs : Dir → Bool := fun d => decide (d = [s "src"] ∨ d = [s "src", s "ab"] ∨ d = [s "lib"])
def wImports : List Dir := [[s "lib"], [s "src"]]

/-- The second import path is a parent of the input. -/
example : declared wDirs wOut wImports [s "src", s "x"] (s "m" ++ ".proto".toList) (s ".pb.h")
    = some [s "b", s "gen", s "x", s "m.pb.h"] := by
  refine C137_declared_partial wDirs wOut wImports _ (s "m") (s ".pb.h") _ ?_ ?_ (by unfold Names; decide) (by unfold Names; decide)
    (by decide) (by decide) (by decide)
    ⟨[[s "lib"]], [s "src"], [], [s "x"], s "m", rfl, by decide, rfl, rfl, rfl⟩
  · decide
  · decide

/-- So protoc writes no other file. -/
example (f : Dir) (h : Writes wImports wOut [s "src", s "x"] (s "m.proto") (s ".pb.h") f) : f = [s "b", s "gen", s "x", s "m.pb.h"] :=
  C137_writes_one h ⟨[[s "lib"]], [s "src"], [], [s "x"], s "m", rfl, by decide, rfl, rfl, rfl⟩

/-- `/src/ab` is not a parent of `/src/abc`. -/
example : declared wDirs wOut [[s "src", s "ab"], [s "src"]] [s "src", s "abc"] (s "m.proto") (s ".pb.h")
    = some [s "b", s "abc", s "m.pb.h"] :=
  (C137_sibling wDirs wOut [s "src"] (s "ab") (s "c") (s "m") (s ".pb.h") (by decide) (by unfold Names; decide) (by decide) (by decide)
    (by decide) (by decide) (by decide) (by decide)).1

example : declared wDirs wOut [] [s "src"] (s "api.v1.proto") (s ".pb.h") = some [s "b", s "gen", s "api.pb.h"] :=
  (C137_dotted wDirs wOut [s "src"] (s "api") (s "v1") (s ".pb.h") (by unfold Names; decide) (by decide) (by decide) (by decide)
    (by decide)).1

example : declared wDirs wOut [[s "none"], [s "src"]] [s "src", s "ab"] (s "m.proto") (s ".pb.h") = none :=
  (C137_missing wDirs wOut [s "none"] [s "src"] [s "ab"] (s "m") (s ".pb.h") (by decide) (by decide)).1

end Verif.ProtoOut
