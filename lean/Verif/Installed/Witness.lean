import Verif.Installed.Props

/-! # Cases of C132, and findings -/

namespace Verif.Installed

open Verif.Path Verif.Path.Spec Verif.Install

/-- A file of a product, with its own name -/
def wPlain : Artifact :=
  ⟨"/build/app".toList, "/s".toList, true, "/usr//local".toList, "bin/".toList, [], "/build/root".toList⟩

/-- A header below a base directory -/
def wBased : Artifact :=
  ⟨"/s/include/a/x.h".toList, "/s".toList, true, "/usr".toList, "../include".toList, "/s/include/".toList, "/r".toList⟩

example : Below wPlain ["app".toList] := .name rfl (by decide +kernel)

example : Below wBased ["a".toList, "x.h".toList] :=
  .base ["s".toList] ["s".toList, "include".toList] _ (by decide +kernel) (by decide +kernel) (by decide +kernel)
    (Or.inr ⟨by decide, by decide +kernel⟩) (by decide +kernel) (by decide) (by decide +kernel)

example : wPlain.rootProperty = absolute ["build".toList, "root".toList] ∧
    (∀ n ∈ ["build".toList, "root".toList], IsName n) ∧
    (∀ n ∈ components wPlain.pre, IsName n) ∧ (∀ n ∈ components wPlain.dir, IsName n) ∧
    targetFilePath "/home/u".toList (absolute ["build".toList, "root".toList]) wPlain = .ok "/build/root/usr/local/bin/app".toList ∧
    installedFilePath wPlain = some "/build/root/usr/local/bin/app".toList := by decide +kernel

example : wBased.rootProperty = absolute ["r".toList] ∧
    targetFilePath "/home/u".toList (absolute ["r".toList]) wBased = .ok "/r/include/a/x.h".toList ∧
    installedFilePath wBased = some "/r/usr/../include/a/x.h".toList := by decide +kernel

/-- **C132 finding.** A relative base directory, which the installer takes as relative to the directory of the product, is refused by
the function. -/
theorem C132_relative_base :
    ∃ a : Artifact, a.base = "include".toList ∧ a.rootProperty = "/r".toList ∧
      targetFilePath "/home/u".toList "/r".toList a = .ok "/r/a/x.h".toList ∧ installedFilePath a = none :=
  ⟨⟨"/s/include/a/x.h".toList, "/s".toList, true, [], [], "include".toList, "/r".toList⟩, rfl, rfl, by decide +kernel, by decide +kernel⟩

/-- **C132 finding.** So is a base directory that is absolute but is not written in the shortest way. -/
theorem C132_unclean_base :
    ∃ a : Artifact, a.base = "/s/src/../include".toList ∧ a.rootProperty = "/r".toList ∧
      targetFilePath "/home/u".toList "/r".toList a = .ok "/r/a/x.h".toList ∧ installedFilePath a = none :=
  ⟨⟨"/s/include/a/x.h".toList, "/s".toList, true, [], [], "/s/src/../include".toList, "/r".toList⟩, rfl, rfl, by decide +kernel,
    by decide +kernel⟩

/-- **C132 finding.** A file in a directory whose name only begins like that of the base directory is accepted by both, but they cut
the path at different positions, and the function gives a path where nothing is installed. -/
theorem C132_different_cut :
    ∃ (a : Artifact) (s t : Str), a.base = "/s/inc".toList ∧ a.rootProperty = "/r".toList ∧
      targetFilePath "/home/u".toList "/r".toList a = .ok t ∧ installedFilePath a = some s ∧
      t = "/r/ude/x.h".toList ∧ s = "/r/lude/x.h".toList ∧ place s ≠ place t :=
  ⟨⟨"/s/include/x.h".toList, "/s".toList, true, [], [], "/s/inc".toList, "/r".toList⟩, _, _, rfl, rfl, by decide +kernel, by decide +kernel,
    rfl, rfl, by decide +kernel⟩

/-- **C132 finding.** The function does not refuse a directory outside of the install root, as the installer does. -/
theorem C132_outside :
    ∃ a : Artifact, a.base = [] ∧ a.rootProperty = "/r".toList ∧
      targetFilePath "/home/u".toList "/r".toList a = .error (.outside a.src) ∧
      installedFilePath a = some "/r/../etc/x".toList :=
  ⟨⟨"/s/x".toList, "/s".toList, true, [], "../etc".toList, [], "/r".toList⟩, rfl, rfl, by decide +kernel, by decide +kernel⟩

end Verif.Installed
