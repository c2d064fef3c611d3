import Verif.EnvVar.Props

/-! # Cases of C134 -/

namespace Verif.EnvVar

open Spec

def wEnv : Env := fun n => if n = "PATH".toList then some "/usr/bin:/bin".toList else if n = "HOME".toList then some "/h".toList else none

def wOps : List Op := [.prepend "/a".toList, .append "/z:/y".toList, .prepend "/b".toList]

example : "PATH".toList ≠ [] ∧ ((wEnv "PATH".toList).getD []).head? ≠ some ':' := by decide +kernel

example : ∀ op ∈ wOps, Op.Proper ':' false op := by
  intro op h
  simp only [wOps, List.mem_cons, List.not_mem_nil, or_false] at h
  rcases h with h | h | h <;> subst h <;> exact ⟨by decide, by decide⟩

example : (script wEnv "PATH".toList (some ':') false wOps).map (fun e => (e "PATH".toList, e "HOME".toList)) =
    some (some "/b:/a:/usr/bin:/bin:/z:/y".toList, some "/h".toList) := by decide +kernel

example : wOps.foldl (step ':' false) (entries ':' (wEnv "PATH".toList)) =
    ["/b".toList, "/a".toList, "/usr/bin".toList, "/bin".toList, "/z".toList, "/y".toList] := by decide +kernel

/-- With separators of Windows, and a variable that is not set -/
example : (script wEnv "NEW".toList (some ';') true [.append "C:/x/y".toList, .prepend "D:/z".toList]).map (fun e => e "NEW".toList) =
    some (some "D:\\z;C:\\x\\y".toList) := by decide +kernel

/-- The value that loses its first entry -/
example : (prepend ⟨"PATH".toList, ":/bin".toList, some ':', false⟩ "/a".toList).value = "/a:/bin".toList := by decide +kernel

end Verif.EnvVar
