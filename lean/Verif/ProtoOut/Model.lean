import Verif.Path.Model

/-! # Where the files that protoc generates are expected

share/qbs/modules/protobuf/protobuf.js: the artifacts that the protobuf.cpp rule declares for an input, and the arguments of protoc.
On Unix, without symbolic links. Directories are lists of names, starting at the root. -/

namespace Verif.ProtoOut

open Verif.Path (baseName)

abbrev Str := List Char
abbrev Dir := List Str

/-- The path of a directory as text. -/
def text (d : Dir) : Str := if d = [] then ['/'] else d.flatMap ('/' :: ·)

/-- `File.canonicalFilePath` of an import path (file.cpp 262-269), where `isDir` says which directories exist; `none` is the empty
string, for those that do not. The paths in `importPaths`, a `pathList` (protobufbase.qbs 22), are absolute when they get here. -/
def canonical (isDir : Dir → Bool) (d : Dir) : Option Dir := if isDir d then some d else none

/-- `QDir::relativeFilePath` for two absolute paths, as `FileInfo.relativePath` calls it (fileinfoextension.cpp 216). The path `.` is
the empty list. -/
def relativePath : Dir → Dir → Dir
  | [], d => d
  | b, [] => List.replicate b.length "..".toList
  | x :: b, y :: d => if x = y then relativePath b d else List.replicate (b.length + 1) "..".toList ++ y :: d

/-- The loop in `getOutputDir` (protobuf.js 61-67); `none` is an exception: every string starts with the empty one, and
`FileInfo.relativePath` does not accept it (fileinfoextension.cpp 208-211). -/
def outputDirFrom (isDir : Dir → Bool) (out input : Dir) : List Dir → Option Dir
  | [] => some out
  | i :: is =>
    match canonical isDir i with
    | none => none
    | some p => if (text p).isPrefixOf (text input) then some (out ++ relativePath p input) else outputDirFrom isDir out input is

/-- What `resolveOutPath` does with `..` in the path of an artifact (rulesapplicator.cpp 669-672, `QDir::cleanPath`). That artifacts outside
of the build directory are refused there is left out. -/
def clean (d : Dir) : Dir := d.foldl (fun acc n => if n = "..".toList then acc.dropLast else acc ++ [n]) []

/-- `cppArtifact(getOutputDir(...), input, tags, suffix).filePath` (protobuf.js 56-75) for the file `name` in `input`. -/
def declared (isDir : Dir → Bool) (out : Dir) (imports : List Dir) (input : Dir) (name suffix : Str) : Option Dir :=
  (outputDirFrom isDir out input imports).map fun d => clean (d ++ [baseName name ++ suffix])

/-- The `--proto_path` arguments in `doPrepare` (protobuf.js 111-118). -/
def protoPaths (imports : List Dir) (input : Dir) : List Dir := if imports = [] then [input] else imports

end Verif.ProtoOut
