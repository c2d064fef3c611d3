import Verif.ProtoOut.Spec
import Verif.Path.Props

namespace Verif.ProtoOut

open Verif.Path (baseName fileName indexOf lastIndexOf)

theorem text_prefix {p d : Dir} (h : p <+: d) : (text p).isPrefixOf (text d) = true := by
  obtain ⟨r, rfl⟩ := h
  rw [List.isPrefixOf_iff_prefix]
  unfold text
  by_cases hp : p = []
  · subst hp
    cases r with
    | nil => simp
    | cons x r => exact ⟨x ++ r.flatMap ('/' :: ·), by simp⟩
  · rw [if_neg hp, if_neg (by simp [hp]), List.flatMap_append]
    exact List.prefix_append _ _

theorem relative_inside (p r : Dir) : relativePath p (p ++ r) = r := by
  induction p with
  | nil => cases r <;> rfl
  | cons x p ih => simp [relativePath, ih]

theorem clean_acc (d acc : Dir) (h : Names d) :
    d.foldl (fun acc n => if n = "..".toList then acc.dropLast else acc ++ [n]) acc = acc ++ d := by
  induction d generalizing acc with
  | nil => simp
  | cons x d ih =>
    have hx := h x (by simp)
    rw [List.foldl_cons, if_neg hx, ih _ (fun n hn => h n (by simp [hn]))]
    simp

theorem clean_names {d : Dir} (h : Names d) : clean d = d := by
  unfold clean; rw [clean_acc d [] h]; rfl

theorem names_append {a b : Dir} (ha : Names a) (hb : Names b) : Names (a ++ b) := by
  intro n hn
  rcases List.mem_append.1 hn with h | h
  · exact ha n h
  · exact hb n h

theorem lastIndexOf_none {c : Char} {s : Str} (h : c ∉ s) : lastIndexOf c s = none := by
  induction s with
  | nil => rfl
  | cons x s ih =>
    rw [lastIndexOf, ih (fun hc => h (by simp [hc]))]
    exact if_neg (fun hx => h (by simp [hx]))

theorem indexOf_first {c : Char} {a b : Str} (h : c ∉ a) : indexOf c (a ++ c :: b) = some a.length := by
  induction a with
  | nil => simp [indexOf]
  | cons x a ih =>
    have hx : x ≠ c := fun e => h (by simp [e])
    rw [List.cons_append, indexOf, if_neg hx, ih (fun hc => h (by simp [hc]))]
    simp

theorem base_name {a b : Str} (hd : '.' ∉ a) (ha : '/' ∉ a) (hb : '/' ∉ b) : baseName (a ++ '.' :: b) = a := by
  have h1 : fileName (a ++ '.' :: b) = a ++ '.' :: b := by
    unfold fileName
    rw [lastIndexOf_none]
    simp [ha, hb]
  unfold baseName
  rw [h1]
  simp only [indexOf_first hd]
  simp

/-- **C137.** The file that the rule declares is the one that protoc writes, if the import paths exist, if none of
them is the beginning of the path of the input without being a parent directory, and if the name of the input has one dot only. The
findings below show what happens otherwise. -/
theorem C137_declared_partial (isDir : Dir → Bool) (out : Dir) (imports : List Dir) (input : Dir) (stem suffix : Str) (f : Dir)
    (habs : ∀ d ∈ imports, isDir d = true)
    (hsib : ∀ d ∈ imports, text d <+: text input → d <+: input)
    (hout : Names out) (hin : Names input) (hd : '.' ∉ stem) (hs : '/' ∉ stem) (hf : stem ++ suffix ≠ "..".toList)
    (hw : Writes (protoPaths imports input) out input (stem ++ ".proto".toList) suffix f) :
    declared isDir out imports input (stem ++ ".proto".toList) suffix = some f := by
  obtain ⟨before, p, after, rest, stem', hp, hb, hi, hn, rfl⟩ := hw
  have hst : stem' = stem := (List.append_cancel_right hn).symm
  subst hst
  have hbase : baseName (stem' ++ ".proto".toList) = stem' := base_name (b := "proto".toList) hd hs (by decide)
  have hrest : Names rest := fun n hn => hin n (by rw [hi]; simp [hn])
  have hlast : Names [stem' ++ suffix] := by intro n hn; rw [List.mem_singleton] at hn; subst hn; exact hf
  have hdir : outputDirFrom isDir out input imports = some (out ++ rest) := by
    by_cases h0 : imports = []
    · subst h0
      simp only [protoPaths, if_pos] at hp
      have hbe : before = [] := by
        cases before with
        | nil => rfl
        | cons b bs => simp at hp
      subst hbe
      simp only [List.nil_append, List.cons.injEq] at hp
      have : rest = [] := by
        have := congrArg List.length hi
        rw [hp.1, List.length_append] at this
        exact List.length_eq_zero_iff.1 (by omega)
      subst this
      simp [outputDirFrom]
    · rw [protoPaths, if_neg h0] at hp
      clear h0
      induction imports generalizing before with
      | nil => simp at hp
      | cons d is ih =>
        have hex := habs d (by simp)
        simp only [outputDirFrom, canonical, hex, if_true]
        cases before with
        | nil =>
          simp only [List.nil_append, List.cons.injEq] at hp
          obtain ⟨rfl, _⟩ := hp
          rw [if_pos (text_prefix ⟨rest, hi.symm⟩), hi, relative_inside]
        | cons b bs =>
          simp only [List.cons_append, List.cons.injEq] at hp
          obtain ⟨rfl, hp⟩ := hp
          have hno : ¬ (text d).isPrefixOf (text input) = true := by
            rw [List.isPrefixOf_iff_prefix]
            exact fun h => hb d (by simp) (hsib d (by simp) h)
          rw [if_neg hno]
          exact ih (fun i hi => habs i (by simp [hi])) (fun d hd => hsib d (by simp [hd])) bs
            hp (fun q hq => hb q (by simp [hq]))
  rw [declared, hdir, Option.map_some, hbase, clean_names (names_append (names_append hout hrest) hlast)]

/-- protoc writes at most one file per suffix. -/
theorem C137_writes_one {paths : List Dir} {out input : Dir} {name suffix : Str} {f g : Dir}
    (hf : Writes paths out input name suffix f) (hg : Writes paths out input name suffix g) : f = g := by
  obtain ⟨b, p, a, r, s, hp, hb, hi, hn, rfl⟩ := hf
  obtain ⟨b', p', a', r', s', hp', hb', hi', hn', rfl⟩ := hg
  have hs : s = s' := List.append_cancel_right (hn.symm.trans hn')
  subst hs
  have hpp : p = p' := by
    subst hp
    clear hn hn'
    induction b generalizing b' with
    | nil =>
      cases b' with
      | nil => simp only [List.nil_append, List.cons.injEq] at hp'; exact hp'.1
      | cons x b' =>
        simp only [List.nil_append, List.cons_append, List.cons.injEq] at hp'
        exact absurd ⟨r, by rw [← hp'.1, ← hi]⟩ (hb' x (by simp))
    | cons y b ih =>
      cases b' with
      | nil =>
        simp only [List.nil_append, List.cons_append, List.cons.injEq] at hp'
        exact absurd ⟨r', by rw [hp'.1, ← hi']⟩ (hb y (by simp))
      | cons x b' =>
        simp only [List.cons_append, List.cons.injEq] at hp'
        exact ih (fun q hq => hb q (by simp [hq])) b' (fun q hq => hb' q (by simp [hq])) hp'.2
  subst hpp
  rw [hi] at hi'
  rw [List.append_cancel_left hi']

/-- **C137 finding.** An import path whose last name is the beginning of the name of a directory beside it is taken for a parent of
that directory. For inputs in there, and with the common parent as second import path, the rule declares a file outside of the output
directory, and protoc writes another one. -/
theorem C137_sibling (isDir : Dir → Bool) (out d : Dir) (a b stem suffix : Str) (ha : isDir (d ++ [a]) = true)
    (hout : Names out) (hne : out ≠ []) (hb : b ≠ []) (hab : a ++ b ≠ "..".toList)
    (hd : '.' ∉ stem) (hs : '/' ∉ stem) (hf : stem ++ suffix ≠ "..".toList) :
    let imports := [d ++ [a], d]
    let input := d ++ [a ++ b]
    declared isDir out imports input (stem ++ ".proto".toList) suffix = some (out.dropLast ++ [a ++ b, stem ++ suffix]) ∧
    Writes (protoPaths imports input) out input (stem ++ ".proto".toList) suffix (out ++ [a ++ b, stem ++ suffix]) ∧
    out.dropLast ++ [a ++ b, stem ++ suffix] ≠ out ++ [a ++ b, stem ++ suffix] := by
  intro imports input
  have hbase : baseName (stem ++ ".proto".toList) = stem := base_name (b := "proto".toList) hd hs (by decide)
  have hnab : a ≠ a ++ b := by
    intro h
    exact hb (List.self_eq_append_right.1 h)
  have hrel : relativePath (d ++ [a]) (d ++ [a ++ b]) = ["..".toList, a ++ b] := by
    clear ha
    clear input imports
    induction d with
    | nil => simp only [List.nil_append, relativePath]; rw [if_neg hnab]; rfl
    | cons x d ih => simpa [relativePath] using ih
  have hpre : (text (d ++ [a])).isPrefixOf (text (d ++ [a ++ b])) = true := by
    rw [List.isPrefixOf_iff_prefix]
    refine ⟨b, ?_⟩
    simp [text]
  refine ⟨?_, ⟨[d ++ [a]], d, [], [a ++ b], stem, by simp [protoPaths, imports], ?_, rfl, rfl, by simp⟩, ?_⟩
  · simp only [declared, imports, input, outputDirFrom, canonical, ha, if_true, hpre, hrel, Option.map_some, hbase]
    congr 1
    unfold clean
    rw [List.append_assoc, List.foldl_append, clean_acc out [] hout]
    simp only [List.cons_append, List.nil_append, List.foldl_cons, List.foldl_nil, if_true, if_neg hab, if_neg hf]
    simp
  · intro q hq h
    rw [List.mem_singleton] at hq
    subst hq
    have := (List.prefix_append_right_inj d).1 h
    simp only [List.cons_prefix_cons] at this
    exact hnab this.1
  · intro h
    have h1 := congrArg List.length (List.append_cancel_right h)
    have h2 := List.length_pos_iff.2 hne
    rw [List.length_dropLast] at h1
    omega

/-- **C137 finding.** For inputs with further dots in their names, such as `api.v1.proto`, the rule declares a file that is named after
the part before the first dot, and protoc writes another one. Two such inputs can have the same declared file. -/
theorem C137_dotted (isDir : Dir → Bool) (out input : Dir) (a b suffix : Str) (hout : Names out)
    (hd : '.' ∉ a) (ha : '/' ∉ a) (hb : '/' ∉ b) (hf : a ++ suffix ≠ "..".toList) :
    let name := a ++ '.' :: b ++ ".proto".toList
    declared isDir out [] input name suffix = some (out ++ [a ++ suffix]) ∧
    Writes (protoPaths [] input) out input name suffix (out ++ [a ++ '.' :: b ++ suffix]) ∧
    out ++ [a ++ suffix] ≠ out ++ [a ++ '.' :: b ++ suffix] := by
  intro name
  have hbase : baseName name = a := by
    have := base_name (a := a) (b := b ++ ".proto".toList) hd ha (by rw [List.mem_append]; rintro (h | h); exact hb h; revert h; decide)
    simpa [name] using this
  refine ⟨?_, ⟨[], input, [], [], a ++ '.' :: b, rfl, by simp, by simp, rfl, by simp⟩, ?_⟩
  · rw [declared, outputDirFrom, Option.map_some, hbase, clean_names (names_append hout ?_)]
    intro n hn; rw [List.mem_singleton] at hn; subst hn; exact hf
  · intro h
    have := congrArg List.length (List.singleton_inj.1 (List.append_cancel_left h))
    simp at this
    omega

/-- **C137 finding.** If a directory in `importPaths` does not exist, the rule fails for all inputs for which no earlier one matches,
while protoc ignores that directory and writes the file. -/
theorem C137_missing (isDir : Dir → Bool) (out m p rest : Dir) (stem suffix : Str) (h : isDir m = false)
    (hm : ¬ m <+: p ++ rest) :
    let input := p ++ rest
    let name := stem ++ ".proto".toList
    declared isDir out [m, p] input name suffix = none ∧
    Writes (protoPaths [m, p] input) out input name suffix (out ++ rest ++ [stem ++ suffix]) := by
  intro input name
  refine ⟨by simp [declared, outputDirFrom, canonical, h], [m], p, [], rest, stem, by simp [protoPaths], ?_, rfl, rfl, rfl⟩
  intro q hq
  rw [List.mem_singleton] at hq
  subst hq
  exact hm

end Verif.ProtoOut
