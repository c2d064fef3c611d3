import Verif.Install.Model
import Verif.PathProbe.Model

/-! # Where artifacts are installed, according to ModUtils

`ModUtils.artifactInstalledFilePath` (share/qbs/imports/qbs/ModUtils/utils.js), which scripts and the exporters use to find out where
the installer (`Verif.Install`) puts a file. On Unix. -/

namespace Verif.Installed

open Verif.Path (fileName isAbsolute)
open Verif.Install (Artifact)
open Verif.PathProbe (joinPaths)

abbrev Str := List Char

/-- `ModUtils.artifactInstalledFilePath` (utils.js 79-93); `none` is an exception. Properties that are undefined are empty, which is
the same for `joinPaths`. -/
def installedFilePath (a : Artifact) : Option Str :=
  let targetDir := joinPaths [a.rootProperty, a.pre, a.dir]
  if a.base ≠ [] then
    if !isAbsolute a.base then none
    else if !a.base.isPrefixOf a.src then none
    else some (joinPaths [targetDir, a.src.drop a.base.length])
  else some (joinPaths [targetDir, fileName a.src])

end Verif.Installed
