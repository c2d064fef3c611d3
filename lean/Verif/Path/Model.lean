/-
Path functions: src/lib/corelib/tools/fileinfo.cpp, on a Unix host.
Simplification: a QString is a sequence of `Char`s instead of UTF-16 code units.
-/

namespace Verif.Path

abbrev Str := List Char

/-- QString::indexOf(c). -/
def indexOf (c : Char) : Str → Option Nat
  | [] => none
  | x :: xs => if x = c then some 0 else (indexOf c xs).map (· + 1)

/-- QString::lastIndexOf(c). -/
def lastIndexOf (c : Char) : Str → Option Nat
  | [] => none
  | x :: xs =>
    match lastIndexOf c xs with
    | some i => some (i + 1)
    | none => if x = c then some 0 else none

/-- FileInfo::fileName, fileinfo.cpp:68-74. -/
def fileName (fp : Str) : Str :=
  match lastIndexOf '/' fp with
  | none => fp
  | some last => fp.drop (last + 1)

/-- FileInfo::baseName, fileinfo.cpp:76-83. -/
def baseName (fp : Str) : Str :=
  let fn := fileName fp
  match indexOf '.' fn with
  | none => fn
  | some dot => fn.take dot

/-- FileInfo::completeBaseName, fileinfo.cpp:85-92. -/
def completeBaseName (fp : Str) : Str :=
  let fn := fileName fp
  match lastIndexOf '.' fn with
  | none => fn
  | some dot => fn.take dot

/-- FileInfo::suffix, fileinfo.cpp:94-101. -/
def suffix (fp : Str) : Str :=
  let fn := fileName fp
  match lastIndexOf '.' fn with
  | none => fn
  | some dot => fn.drop (dot + 1)

/-- FileInfo::completeSuffix, fileinfo.cpp:103-110. -/
def completeSuffix (fp : Str) : Str :=
  let fn := fileName fp
  match indexOf '.' fn with
  | none => fn
  | some dot => fn.drop (dot + 1)

/-- FileInfo::path, fileinfo.cpp:112-127. `cleanPath` is QDir::cleanPath (Qt). -/
def path (cleanPath : Str → Str) (fp : Str) : Str :=
  if fp = [] then []
  else match lastIndexOf '/' fp with
    | none => ['.']
    | some last =>
      let p := cleanPath (fp.take last)
      if p = [] then ['/'] else p

/-- FileInfo::splitIntoDirectoryAndFileName, fileinfo.cpp:129-151. -/
def splitIntoDirectoryAndFileName (fp : Str) : Str × Str :=
  match lastIndexOf '/' fp with
  | none => ([], fp)
  | some idx => (fp.take idx, fp.drop (idx + 1))

/-- FileInfo::isAbsolute, fileinfo.cpp:168-186. -/
def isAbsolute : Str → Bool
  | [] => false
  | c :: _ => c == '/'

/-- `r.truncate(idx)` if there is a slash, fileinfo.cpp:224-226 and 229-231. -/
def goUp (r : Str) : Str :=
  match lastIndexOf '/' r with
  | none => r
  | some idx => r.take idx

/-- The loop over "../" and the rest of resolvePath, fileinfo.cpp:221-239.
    (`isCurrentDrivePath` is false on Unix.) -/
def resolveLoop (r : Str) : Str → Str
  | '.' :: '.' :: '/' :: s => resolveLoop (goUp r) s
  | s =>
    let (r, s) := if s = ['.', '.'] then (goUp r, []) else (r, s)
    if s ≠ [] then r ++ '/' :: s else r

/-- FileInfo::resolvePath, fileinfo.cpp:203-240. `home` is QDir::homePath(); `none` is the failed
    assertion. -/
def resolvePath (home base rel : Str) : Option Str :=
  if isAbsolute base = false then none
  else if isAbsolute rel then some rel
  else if rel = ['.'] then some base
  else if rel = ['~'] then some home
  else if ['~', '/'].isPrefixOf rel then some (home ++ rel.drop 1)
  else
    let r := if base.getLast? = some '/' then base.dropLast else base
    some (resolveLoop r rel)

end Verif.Path
