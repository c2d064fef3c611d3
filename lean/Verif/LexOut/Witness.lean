import Verif.LexOut.Props

/-! Concrete cases for the theorems. -/

namespace Verif.LexOut

def s (x : String) : Str := x.toList

/-- `%option prefix="calc" noyywrap` and `%option nodefault`, with `uniqueSymbolPrefix` -/
def wInput : Input := ⟨s "/b/lexyacc", true, none, s "in", [[⟨s "prefix", some (s "calc")⟩, ⟨s "noyywrap", none⟩], [⟨s "nodefault", none⟩]]⟩

example : written wInput = s "/b/lexyacc/lex.calc.c" :=
  C138_declared_partial wInput (by decide) (by decide) (by decide)
    (by intro l hl t ht f hn; simp only [wInput, List.mem_cons, List.not_mem_nil, or_false] at hl
        rcases hl with rfl | rfl <;> simp only [List.mem_cons, List.not_mem_nil, or_false] at ht
        · rcases ht with rfl | rfl <;> exact absurd hn (by decide)
        · subst ht; exact absurd hn (by decide))
    (by intro f h; cases h)

example : declared ⟨s "/b", true, none, s "a", []⟩ ≠ declared ⟨s "/b", true, none, s "b", [[⟨s "noyywrap", none⟩]]⟩ :=
  C138_unique _ _ rfl rfl rfl rfl rfl (by decide) (by decide) (by decide) (by decide) (by decide)

def wLater : Input := ⟨s "/b", false, none, s "in", [[⟨s "noyywrap", none⟩, ⟨s "outfile", some (s "scanner.c")⟩]]⟩

example : declared wLater = s "/b/lex.yy.c" ∧ written wLater = s "/b/scanner.c" :=
  C138_later_setting wLater ⟨s "noyywrap", none⟩ (s "scanner.c") (by decide) (by decide) rfl rfl rfl (by decide)

example : declared ⟨s "/b", false, some (s "/b/x.c"), s "in", []⟩ = s "/b/b/x.c" :=
  (C138_absolute ⟨s "/b", false, some (s "/b/x.c"), s "in", []⟩ (s "b/x.c") rfl rfl (by decide)).1

example : symbolPrefix ⟨s "/b", true, none, s "in", [[⟨s "noyywrap", none⟩]]⟩ = s "in" :=
  C138_prefix_partial _ (by decide) (.inl rfl) (by decide)

example : symbolPrefix ⟨s "/b", true, some (s "x.c"), s "in", [[⟨s "outfile", some (s "y.c")⟩]]⟩ = s "in" :=
  C138_prefix_partial _ (by decide) (.inr ⟨[⟨s "outfile", some (s "y.c")⟩], by simp, ⟨s "outfile", some (s "y.c")⟩, rfl, rfl⟩) (by decide)

example : symbolPrefix ⟨s "/b", true, some (s "x.c"), s "in", []⟩ = s "yy" := C138_prefix_lost _ (s "x.c") rfl rfl

end Verif.LexOut
