/-!
# C47: architecture names

Model of src/lib/corelib/tools/architectures.cpp 52-155. Strings are lists of characters;
`QString::toLower` is a parameter `lower` that leaves the (lower-case ASCII) names of the table
alone.
-/
namespace Verif.Arch

abbrev Str := List Char

/-- architectures.cpp 101-146: the map from canonical names to their aliases, in the order of
`QMap` (sorted by key). -/
def archMap : List (Str × List Str) :=
  [ ("arm64".toList, ["aarch64".toList]),
    ("ia64".toList, ["ia-64".toList, "itanium".toList]),
    ("mips".toList, ["mipseb".toList, "mipsel".toList]),
    ("mips64".toList, ["mips64eb".toList, "mips64el".toList]),
    ("ppc".toList, ["powerpc".toList]),
    ("ppc64".toList, ["ppc64le".toList, "powerpc64".toList, "powerpc64le".toList]),
    ("x86".toList, ["i386".toList, "i486".toList, "i586".toList, "i686".toList, "ia32".toList,
      "ia-32".toList, "x86_32".toList, "x86-32".toList, "intel32".toList, "mingw32".toList]),
    ("x86_64".toList, ["x86-64".toList, "x64".toList, "amd64".toList, "ia32e".toList,
      "em64t".toList, "intel64".toList, "mingw64".toList]) ]

/-- architectures.cpp 148-151: the loop over the map. -/
def find (a : Str) : List (Str × List Str) → Option Str
  | [] => none
  | (k, al) :: r => if al.contains a then some k else find a r

/-- architectures.cpp 99-155 `canonicalArchitecture`. -/
def canonicalArchitecture (lower : Str → Str) (a : Str) : Str :=
  match find (lower a) archMap with
  | some k => k
  | none => a

/-- architectures.cpp 52-97 `canonicalTargetArchitecture`. -/
def canonicalTargetArchitecture (lower : Str → Str)
    (architecture endianness vendor system abi : Str) : Str :=
  let arch := canonicalArchitecture lower architecture
  let isApple : Bool := vendor == "apple".toList || system == "darwin".toList
    || system == "macosx".toList || system == "ios".toList || system == "tvos".toList
    || system == "watchos".toList || abi == "macho".toList
  let isQnx : Bool := system == "nto".toList || "qnx".toList.isPrefixOf abi
  if arch = "armv7a".toList ∧ isApple then "armv7".toList
  else if arch = "armv7a".toList ∧ isQnx then "arm".toList
  else if arch = "arm64".toList ∧ isQnx then "aarch64".toList
  else if arch = "x86".toList then (if isQnx then "i586".toList else "i386".toList)
  else if (arch = "mips".toList ∨ arch = "mips64".toList) ∧ endianness = "big".toList then
    arch ++ "eb".toList
  else if (arch = "mips".toList ∨ arch = "mips64".toList) ∧ endianness = "little".toList then
    arch ++ "el".toList
  else if arch = "ppc".toList then "powerpc".toList
  else if arch = "ppc64".toList ∧ endianness = "little".toList then arch ++ "le".toList
  else arch

/-- The law assumed of `toLower`: the names in the table are lower case already. -/
def LowerOk (lower : Str → Str) : Prop :=
  ∀ e ∈ archMap, lower e.1 = e.1 ∧ ∀ al ∈ e.2, lower al = al

theorem find_some (a : Str) : ∀ (l : List (Str × List Str)) (k : Str), find a l = some k →
    ∃ al, (k, al) ∈ l ∧ a ∈ al := by
  intro l
  induction l with
  | nil => intro k h; cases h
  | cons e r ih =>
    intro k h
    obtain ⟨k', al⟩ := e
    simp only [find] at h
    split at h
    · rename_i hc
      cases h
      exact ⟨al, by simp, by simpa using hc⟩
    · obtain ⟨al', h1, h2⟩ := ih k h
      exact ⟨al', by simp [h1], h2⟩

/-- No canonical name is an alias. -/
theorem keys_not_found : ∀ e ∈ archMap, find e.1 archMap = none := by decide +kernel

/-- Every alias belongs to one architecture only. -/
theorem aliases_found : ∀ e ∈ archMap, ∀ al ∈ e.2, find al archMap = some e.1 := by
  decide +kernel

/-- **C47 (idempotent).** Canonicalising twice is the same as once, for every string. -/
theorem C47_idempotent (lower : Str → Str) (hl : LowerOk lower) (a : Str) :
    canonicalArchitecture lower (canonicalArchitecture lower a)
      = canonicalArchitecture lower a := by
  unfold canonicalArchitecture
  cases h : find (lower a) archMap with
  | none => simp only [h]
  | some k =>
    obtain ⟨al, hm, _⟩ := find_some _ _ _ h
    simp only
    rw [(hl _ hm).1, keys_not_found _ hm]

/-- **C47 (aliases).** Every way of writing an alias, in any mixture of cases, is mapped to the
architecture the alias belongs to; a string that is no alias in any case is left alone. -/
theorem C47_aliases (lower : Str → Str) (a : Str) :
    (∀ e ∈ archMap, lower a ∈ e.2 → canonicalArchitecture lower a = e.1) ∧
    ((∀ e ∈ archMap, lower a ∉ e.2) → canonicalArchitecture lower a = a) := by
  constructor
  · intro e he ha
    simp only [canonicalArchitecture, aliases_found e he _ ha]
  · intro h
    unfold canonicalArchitecture
    cases hf : find (lower a) archMap with
    | none => rfl
    | some k =>
      obtain ⟨al, hm, ha⟩ := find_some _ _ _ hf
      exact absurd ha (h _ hm)

/-- `lower` on ASCII, a function satisfying the law. -/
def asciiLower (s : Str) : Str := s.map Char.toLower

theorem asciiLower_ok : LowerOk asciiLower := by unfold LowerOk; decide +kernel

example : canonicalArchitecture asciiLower "AMD64".toList = "x86_64".toList := by decide +kernel
example : canonicalArchitecture asciiLower "sparc".toList = "sparc".toList := by decide +kernel

/-- **C47 (target names).** The name used in target triplets always leads back to the
architecture it was made from, for all combinations of endianness, vendor, system and ABI; with
the exception of armv7a (see below). -/
theorem C47_target_name_leads_back (lower : Str → Str) (hl : LowerOk lower)
    (a endianness vendor system abi : Str)
    (h7 : canonicalArchitecture lower a ≠ "armv7a".toList) :
    canonicalArchitecture lower
        (canonicalTargetArchitecture lower a endianness vendor system abi)
      = canonicalArchitecture lower a := by
  have hid := C47_idempotent lower hl a
  have hal : ∀ al k : Str, (∃ e ∈ archMap, e.1 = k ∧ al ∈ e.2) →
      canonicalArchitecture lower al = k := by
    rintro al k ⟨e, he, rfl, ha⟩
    exact (C47_aliases lower al).1 e he (by rw [(hl e he).2 al ha]; exact ha)
  revert h7 hid
  unfold canonicalTargetArchitecture
  simp only
  generalize canonicalArchitecture lower a = arch
  intro h7 hid
  rw [if_neg (fun h => h7 h.1), if_neg (fun h => h7 h.1)]
  split
  · rename_i h
    rw [h.1]
    exact hal _ _ (by decide +kernel)
  split
  · rename_i h
    rw [h]
    split
    · exact hal _ _ (by decide +kernel)
    · exact hal _ _ (by decide +kernel)
  split
  · rename_i h
    rcases h.1 with h | h <;> rw [h]
    · exact hal _ _ (by decide +kernel)
    · exact hal _ _ (by decide +kernel)
  split
  · rename_i h
    rcases h.1 with h | h <;> rw [h]
    · exact hal _ _ (by decide +kernel)
    · exact hal _ _ (by decide +kernel)
  split
  · rename_i h
    rw [h]
    exact hal _ _ (by decide +kernel)
  split
  · rename_i h
    rw [h.1]
    exact hal _ _ (by decide +kernel)
  · exact hid

example : canonicalTargetArchitecture asciiLower "AArch64".toList [] [] "nto".toList []
    = "aarch64".toList := by decide +kernel

/-- **C47 (finding).** For armv7a the target name for Apple and QNX systems does not lead back. -/
theorem C47_armv7a_target_name :
    canonicalArchitecture asciiLower
      (canonicalTargetArchitecture asciiLower "armv7a".toList [] "apple".toList [] [])
      = "armv7".toList := by decide +kernel

/-- **C47 (finding).** Canonical names themselves are only recognised in lower case. -/
theorem C47_canonical_names_case_sensitive :
    canonicalArchitecture asciiLower "X86".toList = "X86".toList ∧
    canonicalArchitecture asciiLower "I386".toList = "x86".toList := by decide +kernel

end Verif.Arch
