import Verif.PathProbe.Props

/-! # C130: concrete cases -/

namespace Verif.PathProbe

def files : List Text := ["/usr/bin/gcc", "/opt/bin/cc", "/opt/lib/x/foo.h", "foo.h", "/opt/foo.h"].map String.toList

def world : World :=
  { getEnv := fun e => if e = "PATH".toList then some "/opt/bin:/usr/bin/".toList else if e = "P2".toList then some ":/opt".toList else none
    fileExists := fun f => files.contains f }

def input : Input :=
  { selectors := none, names := some [['g', 'c', 'c'], ['c', 'c']], nameSuffixes := none, nameFilter := none, candidateFilter := none
    searchPaths := ["/home".toList], pathSuffixes := [], platformSearchPaths := [], environmentPaths := ["PATH".toList]
    platformEnvironmentPaths := [] }

example : joinPaths ["/usr/".toList, [], "/bin//x".toList, "y/".toList] = "/usr/bin/x/y/".toList := by decide +kernel
example : comps "/usr/bin/x/y/".toList = ["usr", "bin", "x", "y"].map String.toList := by decide +kernel

/-- The first name is searched in all directories before the second one is. -/
example : findFile world input ⟨[['g', 'c', 'c'], ['c', 'c']], none⟩ =
    ⟨true, ["/opt/bin/gcc".toList, "/usr/bin/gcc".toList], some "/usr/bin/gcc".toList, some "gcc".toList, some "/usr/bin/".toList⟩ := by
  decide +kernel

example : (findFile world input ⟨[['c', 'c']], none⟩).filePath = some "/opt/bin/cc".toList := by decide +kernel
example : (configure world input).map (·.found) = some true := by decide +kernel

/-- The hypotheses of the theorem about the first file -/
example : order (fullNames input ⟨[['g', 'c', 'c']], none⟩) (paths world input) ([] :: input.pathSuffixes) =
    [(['g', 'c', 'c'], "/opt/bin".toList, [])] ++ (['g', 'c', 'c'], "/usr/bin/".toList, []) :: [(['g', 'c', 'c'], "/home".toList, [])] := by
  decide +kernel
example : Accepted world input "/usr/bin/gcc".toList := ⟨by decide +kernel, fun g h => (by cases h)⟩

/-- A file that does not exist, and a filter that refuses the file -/
example : findFile world input ⟨["x".toList], none⟩ = ⟨false, ["/opt/bin/x", "/usr/bin/x", "/home/x"].map String.toList, none, none, none⟩ := by
  decide +kernel
example : (findFile world { input with candidateFilter := some (fun f => f.length < 3) } ⟨[['c', 'c']], none⟩).found = false := by
  decide +kernel

/-- Several selectors -/
example : (configure world { input with selectors := some [.str ['c', 'c'], .list [['x'], ['g', 'c', 'c']]] }).map (fun r => (r.found, r.files.length)) =
    some (true, 2) := by decide +kernel
example : (configure world { input with selectors := some [.str ['c', 'c'], .str ['x']] }).map (·.found) = some false := by decide +kernel
example : ((selectorsOf { input with selectors := some [.str ['c'], .dict (some [['d']]) (some [['.', 'e']])], nameSuffixes := some [['.', 'f']] }).map
    (·.map fun c => (c.names, c.nameSuffixes))) = some [([['c']], none), ([['d']], some [['.', 'e']])] := by decide +kernel
example : (configure world { input with selectors := some [.dict none none] }).isNone = true := by decide +kernel

/-- The findings: suffixes, empty elements, sub-directories -/
example : (findFile world { input with environmentPaths := ["P2".toList] } ⟨["foo.h".toList], none⟩).filePath = some "foo.h".toList := by
  decide +kernel
example : (findFile world { input with environmentPaths := [], searchPaths := ["/opt".toList], pathSuffixes := ["lib/x".toList] }
    ⟨["foo.h".toList], none⟩).filePath = some "/opt/foo.h".toList := by decide +kernel
example : fullNames { input with nameSuffixes := some [".exe".toList] } ⟨[['c', 'c']], none⟩ = [['c', 'c']] := by decide +kernel

end Verif.PathProbe
