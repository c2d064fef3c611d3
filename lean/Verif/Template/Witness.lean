import Verif.Template.Props

/-! # C128: concrete cases -/

namespace Verif.Template

deriving instance DecidableEq for Except

def dict : Dict :=
  { own := [("a".toList, "${b}".toList), ("b".toList, "two".toList), ("empty".toList, [])]
    inherited := [("toString".toList, "function toString() {}".toList)] }

def line : List Part := [.lit 'x', .var ['a'], .lit '$', .lit '{', .lit '}', .var ['$'], .var ['b'], .lit '!']

example : template .dollar line = "x${a}${}${$}${b}!".toList := by decide

/-- The line can be read in this way, and it has a result; the value of `a` is not looked at again. -/
example : renderLine .dollar dict "x${a}${}${$}${b}!".toList = .ok "x${b}${}$two!".toList := by decide +kernel

example : Ok .dollar [.lit 'x', .var ['a']] :=
  ⟨fun n rest _ h => by injection h with h; exact absurd h (by decide), .inr ⟨by decide, by decide⟩, trivial⟩

example : Rendered .dollar dict [.lit 'x', .var ['a']] "x${b}".toList :=
  .lit (.var (x := "${b}".toList) (.inr ⟨by decide, by decide⟩) .nil)

/-- Placeholders that stand for nothing; the last one is named. -/
example : renderLine .dollar dict "${c} ${a} ${d} ${b}".toList = .error ['d'] := by decide +kernel
example : Unknown .dollar dict ['d'] := ⟨.inr ⟨by decide, by decide⟩, by decide, by decide⟩

/-- The other style; overlapping candidates are taken from the left. -/
example : renderLine .at dict "@@@ @a@b@ me@b".toList = .ok "@ ${b}b@ me@b".toList := by decide +kernel
example : renderLine .dollar dict "@a@ $a ${ a } ${".toList = .ok "@a@ $a ${ a } ${".toList := by decide +kernel

example : quote .dollar "a$b".toList = "a${$}b".toList := by decide
example : quote .at "a@b".toList = "a@@@b".toList := by decide

/-- Files -/
example : render .dollar dict "${b}\n\n${empty}\n".toList = .ok "two\n\n\n".toList := by decide +kernel
example : render .dollar dict "a\n${b} ${q}\n".toList = .error ['q'] := by decide +kernel
example : render .dollar dict "last".toList = .ok "last\n".toList := by decide +kernel
example : render .dollar dict [] = .ok [] := by decide +kernel

example : (dict.own.map Prod.fst).Nodup ∧ ("b".toList, "two".toList) ∈ dict.own := by decide

/-- `toString` is not in the dictionary. -/
example : renderLine .dollar dict "${toString}".toList = .ok "function toString() {}".toList := by decide +kernel

end Verif.Template
