import Verif.TextF.Lem3

/-! C122: reading and writing files in scripts. -/
namespace Verif.TextF

theorem codec_utf8 : (codecFor sUtf8).getD .utf8 = .utf8 := rfl

theorem flush_empty (d : Disk) {h : Handle} (hb : h.buf = []) : flush d h = (d, h, true) := by
  simp [flush, hb]

/-- Plain text with the end of a line is decoded to itself. -/
theorem decode_line {l : Text} (hl : Plain l) : decode .utf8 (encode .utf8 l ++ [10]) = l ++ [10] := by
  have he : encode .utf8 l ++ [10] = encode .utf8 (l ++ [10]) := by
    simp [encode, enc8]
  rw [he]
  apply decode_encode
  refine ⟨?_, ?_⟩
  · intro c hc
    rcases List.mem_append.mp hc with hc | hc
    · exact hl.1 c hc
    · rw [List.mem_singleton.mp hc]; omega
  · cases l with
    | nil => simp [bom]
    | cons a l => simpa using hl.2

theorem step_atEof (chunk : Nat) (d : Disk) (c : Codec) {h : Handle} (hb : h.buf = []) :
    tStep chunk ⟨⟨d, some h⟩, c⟩ .atEof = (⟨⟨d, some h⟩, c⟩, .bool (decide (d.bytes.length ≤ h.pos))) := by
  simp [tStep, flush_empty d hb]

theorem step_readLine (chunk : Nat) (d : Disk) (c : Codec) {h : Handle} (hb : h.buf = [])
    (hr : h.readable = true) {w : Bytes} (hw : takeLine (d.bytes.drop h.pos) = w) {t : Text}
    (ht : decode c (textLine w) = t) :
    tStep chunk ⟨⟨d, some h⟩, c⟩ .readLine = (⟨⟨d, some { h with pos := h.pos + w.length }⟩, c⟩,
      .text (if t.getLast? = some 10 then t.dropLast else t)) := by
  simp only [tStep, flush_empty d hb, hr, hw, ht, Bool.true_eq_false, if_false]

theorem readLines_at (chunk : Nat) (d : Disk) : ∀ (ls : List (Text × Bool)) (last : Text) (h : Handle) (f : Nat),
    LinesOk ls last → h.readable = true → h.buf = [] → d.bytes.drop h.pos = fileOf ls last →
    ls.length + 1 < f → readLines chunk f ⟨⟨d, some h⟩, .utf8⟩ = linesOf ls last := by
  intro ls
  induction ls with
  | nil =>
    intro last h f hok hr hb hd hf
    obtain ⟨g, rfl⟩ : ∃ g, f = g + 2 := ⟨f - 2, by simp at hf; omega⟩
    by_cases he : last = []
    · subst he
      have hlen : d.bytes.length ≤ h.pos := by
        simp only [fileOf, encode, List.flatMap_nil, List.append_nil] at hd
        exact List.drop_eq_nil_iff.mp hd
      simp [readLines, tStep, flush_empty d hb, hlen, linesOf]
    · have hne : encode .utf8 last ≠ [] := by
        cases last with
        | nil => exact absurd rfl he
        | cons c t =>
          intro e
          have := congrArg List.length e
          have h1 := enc8_len c
          simp only [encode, List.flatMap_cons, List.length_append, List.length_nil] at this
          omega
      have hd' : d.bytes.drop h.pos = encode .utf8 last := by simpa [fileOf] using hd
      have hlen : ¬ d.bytes.length ≤ h.pos := by
        intro e
        rw [List.drop_eq_nil_of_le e] at hd'
        exact hne hd'.symm
      have hno : 10 ∉ encode .utf8 last := fun hm => hok.2.2 (mem_encode hm (by omega))
      have hlast : last.getLast? ≠ some 10 := fun e => hok.2.2 (List.mem_of_getLast? e)
      have hend : d.bytes.length ≤ h.pos + (encode .utf8 last).length := by
        rw [← hd', List.length_drop]; omega
      have hrl := step_readLine chunk d .utf8 hb hr (w := encode .utf8 last) (t := last)
        (by rw [hd', takeLine_all hno]) (by rw [textLine_none hno, decode_encode hok.2.1])
      rw [if_neg hlast] at hrl
      have hend' := step_atEof chunk d .utf8 (h := { h with pos := h.pos + (encode .utf8 last).length }) hb
      simp only [readLines, step_atEof chunk d .utf8 hb, hlen, decide_false, hrl, hend', hend, decide_true]
      simp [linesOf, he]
  | cons l ls ih =>
    intro last h f hok hr hb hd hf
    obtain ⟨g, rfl⟩ : ∃ g, f = g + 1 := ⟨f - 1, by simp at hf; omega⟩
    obtain ⟨h1, h2, h3⟩ := hok.1 l (by simp)
    have hok' : LinesOk ls last := ⟨fun x hx => hok.1 x (List.mem_cons_of_mem _ hx), hok.2⟩
    have hno : 10 ∉ encode .utf8 l.1 := fun hm => h2 (mem_encode hm (by omega))
    obtain ⟨w, hw1, hw2, hw3⟩ : ∃ w, d.bytes.drop h.pos = w ++ fileOf ls last ∧
        takeLine (w ++ fileOf ls last) = w ∧ textLine w = encode .utf8 l.1 ++ [10] := by
      cases hc : l.2 with
      | true =>
        refine ⟨encode .utf8 l.1 ++ [13, 10], ?_, ?_, textLine_crlf _⟩
        · rw [hd]; simp [fileOf, hc]
        · have hno' : 10 ∉ encode .utf8 l.1 ++ [13] := by simp [hno]
          have := takeLine_of hno' (fileOf ls last)
          simpa using this
      | false =>
        refine ⟨encode .utf8 l.1 ++ [10], ?_, ?_, textLine_lf ?_⟩
        · rw [hd]; simp [fileOf, hc]
        · have := takeLine_of hno (fileOf ls last)
          simpa using this
        · intro e; exact h3 hc (encode_last e)
    have hwne : w ≠ [] := by
      intro e
      rw [e] at hw3
      simp [textLine] at hw3
    have hlen : ¬ d.bytes.length ≤ h.pos := by
      intro e
      rw [List.drop_eq_nil_of_le e] at hw1
      have := (List.append_eq_nil_iff.mp hw1.symm).1
      exact hwne this
    have hrest := ih last { h with pos := h.pos + w.length } g hok' hr hb
      (by
        have := congrArg (List.drop w.length) hw1
        rw [List.drop_drop, List.drop_left] at this
        exact this)
      (by simp at hf; omega)
    have hrl := step_readLine chunk d .utf8 hb hr (w := w) (t := l.1 ++ [10])
      (by rw [hw1, hw2]) (by rw [hw3, decode_line h1])
    rw [if_pos (by simp), List.dropLast_concat] at hrl
    simp only [readLines, step_atEof chunk d .utf8 hb, hlen, decide_false, hrl, hrest]
    simp [linesOf]

/-- **C122.** Reading a text file line by line gives its lines, whichever of the usual line ends are
used, and whether or not the last line has one.  Partial: `LinesOk` asks that no line starts with a
byte order mark or has a carriage return where it is taken for a part of the line end. -/
theorem C122_read_lines_partial (chunk : Nat) (ls : List (Text × Bool)) (last : Text) (limit : Option Nat)
    (hok : LinesOk ls last) (f : Nat) (hf : ls.length + 1 < f) :
    readLines chunk f (tOpen ⟨fileOf ls last, limit⟩ true false false sUtf8) = linesOf ls last :=
  readLines_at chunk _ ls last _ f hok rfl rfl rfl hf

/-- **C122.** After any number of write operations on a file that was opened for writing or appending,
the file consists of what was there before (if it was opened for appending) and of what was written,
in this order. -/
theorem C122_written (chunk : Nat) (b : Bytes) (w a : Bool) (hwa : w = true ∨ a = true) (codec : Text)
    (ops : List TOp) (ho : ∀ o ∈ ops, isWrite o = true) :
    (tRun chunk (tOpen ⟨b, none⟩ false w a codec) (ops ++ [.close])).1.st =
      ⟨⟨(if a then b else []) ++ written ((codecFor codec).getD .utf8) ops, none⟩, none⟩ := by
  have hrun : ∀ (l : List TOp) (s : TSt) , (tRun chunk s (l ++ [.close])).1 = (tStep chunk (tRun chunk s l).1 .close).1 := by
    intro l
    induction l with
    | nil => intro s; rfl
    | cons o l ih => intro s; simp only [List.cons_append, tRun]; exact ih _
  rw [hrun]
  have hopen : tOpen ⟨b, none⟩ false w a codec =
      ⟨⟨(fileOpen ⟨b, none⟩ false w a).1, some (fileOpen ⟨b, none⟩ false w a).2⟩, (codecFor codec).getD .utf8⟩ := rfl
  have hat : AtEnd (fileOpen ⟨b, none⟩ false w a).1 (fileOpen ⟨b, none⟩ false w a).2 (if a then b else []) := by
    cases a with
    | true => exact ⟨by simp [fileOpen], by simp [fileOpen], .inl rfl, by simp [fileOpen]⟩
    | false =>
      have hw : w = true := by simpa using hwa
      subst hw
      exact ⟨rfl, rfl, .inr rfl, rfl⟩
  obtain ⟨d', h', e, q⟩ := run_end chunk ((codecFor codec).getD .utf8) ops _ _ _ ho hat
  rw [hopen, e]
  obtain ⟨d2, h2, e2, q2, e3, _⟩ := flush_end q
  simp only [tStep, fileClose, e2]
  rw [← e3]
  have := q2.limit
  cases d2
  simp_all

theorem written_lines (ls : List Text) :
    written .utf8 (ls.map .writeLine) = fileOf (ls.map (·, false)) [] := by
  induction ls with
  | nil => rfl
  | cons l ls ih =>
    simp only [List.map_cons, written, ih]
    simp [fileOf]

/-- **C122.** Lines that are written to a file are read back as they are.  Partial: not if a line
starts with a byte order mark or ends in a carriage return (see `C122_finding_bom` and
`C122_finding_cr`). -/
theorem C122_lines_partial (chunk : Nat) (b : Bytes) (ls : List Text) (hl : ∀ l ∈ ls, Line l) (f : Nat)
    (hf : ls.length + 1 < f) :
    readLines chunk f (tOpen (tRun chunk (tOpen ⟨b, none⟩ false true false sUtf8)
        (ls.map .writeLine ++ [.close])).1.st.disk true false false sUtf8) = ls := by
  rw [C122_written chunk b true false (.inl rfl) sUtf8 _ (by
    intro o ho
    obtain ⟨l, _, rfl⟩ := List.mem_map.mp ho
    rfl)]
  simp only [codec_utf8, Bool.false_eq_true, if_false, List.nil_append]
  rw [written_lines, C122_read_lines_partial chunk _ _ _ ?_ f (by simpa using hf)]
  · simp [linesOf, Function.comp_def]
  · refine ⟨?_, by simp [Plain], by simp⟩
    intro x hx
    obtain ⟨l, hm, rfl⟩ := List.mem_map.mp hx
    obtain ⟨h1, h2, h3⟩ := hl l hm
    exact ⟨h1, h2, fun _ => h3⟩

theorem filter_enc {t : Text} (h : 13 ∉ t) : textAll (encode .utf8 t) = encode .utf8 t := by
  unfold textAll
  rw [List.filter_eq_self]
  intro b hb
  simp only [ne_eq, decide_eq_true_eq]
  intro e
  subst e
  exact h (mem_encode hb (by omega))

theorem written_texts (ts : List Text) : written .utf8 (ts.map .write) = encode .utf8 ts.flatten := by
  induction ts with
  | nil => rfl
  | cons t ts ih =>
    simp only [List.map_cons, written, ih]
    simp [encode]

/-- **C122.** What is written piece by piece is read back as a whole.  Partial: not if it starts with a
byte order mark or contains carriage returns (see `C122_finding_bom` and `C122_finding_cr_all`). -/
theorem C122_text_partial (chunk : Nat) (b : Bytes) (ts : List Text) (hp : Plain ts.flatten)
    (h13 : 13 ∉ ts.flatten) :
    (tStep chunk (tOpen (tRun chunk (tOpen ⟨b, none⟩ false true false sUtf8)
        (ts.map .write ++ [.close])).1.st.disk true false false sUtf8) .readAll).2 = .text ts.flatten := by
  rw [C122_written chunk b true false (.inl rfl) sUtf8 _ (by
    intro o ho
    obtain ⟨l, _, rfl⟩ := List.mem_map.mp ho
    rfl)]
  simp only [codec_utf8, Bool.false_eq_true, if_false, List.nil_append, written_texts]
  simp [tStep, tOpen, fileOpen, flush, codec_utf8, filter_enc h13, decode_encode hp]

/-- **C122.** After closing, every operation throws and nothing changes any more. -/
theorem C122_closed (chunk : Nat) (s : TSt) (b : St) :
    (∀ o, tStep chunk (tStep chunk s .close).1 o =
      ((tStep chunk s .close).1, .error)) ∧
    (∀ o, bStep chunk (bStep chunk b .close).1 o = ((bStep chunk b .close).1, .error)) := by
  constructor
  · intro o
    cases hs : s.st.handle <;> simp [tStep, hs]
  · intro o
    cases hs : b.handle <;> simp [bStep, hs]

/-- An object that cannot write. -/
def NoWrite (h : Option Handle) : Prop := ∀ x, h = some x → x.writable = false ∧ x.buf = []

theorem tStep_readonly (chunk : Nat) (s : TSt) (hs : NoWrite s.st.handle) (op : TOp) :
    (tStep chunk s op).1.st.disk = s.st.disk ∧ NoWrite (tStep chunk s op).1.st.handle := by
  obtain ⟨⟨d, hd⟩, c⟩ := s
  cases hd with
  | none => exact ⟨rfl, hs⟩
  | some h =>
    obtain ⟨h1, h2⟩ := hs h rfl
    cases op <;> simp only [tStep, flush_empty d h2, fileClose, fileWrite, h1, if_true] <;>
      first
        | exact ⟨trivial, hs⟩
        | exact ⟨trivial, fun x e => by cases e⟩
        | (split <;> first | exact ⟨rfl, hs⟩ | (refine ⟨rfl, ?_⟩; intro x e; cases e; exact ⟨rfl, h2⟩))

theorem bStep_readonly (chunk : Nat) (s : St) (hs : NoWrite s.handle) (op : BOp) :
    (bStep chunk s op).1.disk = s.disk ∧ NoWrite (bStep chunk s op).1.handle := by
  obtain ⟨d, hd⟩ := s
  cases hd with
  | none => exact ⟨rfl, hs⟩
  | some h =>
    obtain ⟨h1, h2⟩ := hs h rfl
    cases op <;> simp only [bStep, flush_empty d h2, fileClose, fileWrite, h1, if_true] <;>
      first
        | exact ⟨trivial, hs⟩
        | (refine ⟨trivial, ?_⟩; intro x e; cases e; exact ⟨rfl, h2⟩)
        | (refine ⟨trivial, ?_⟩; intro x e; cases e; done)
        | (split <;> first | exact ⟨rfl, hs⟩ | (refine ⟨rfl, ?_⟩; intro x e; cases e; exact ⟨rfl, h2⟩))

/-- **C122.** A file that was opened for reading only is never changed, whatever is called. -/
theorem C122_readonly (chunk : Nat) (d : Disk) (codec : Text) (ops : List TOp) (bops : List BOp) :
    (tRun chunk (tOpen d true false false codec) ops).1.st.disk = d ∧
    (∀ s, bOpen d 1 = some s → (bRun chunk s bops).1.disk = d) := by
  constructor
  · have : ∀ (l : List TOp) (s : TSt), NoWrite s.st.handle → (tRun chunk s l).1.st.disk = s.st.disk := by
      intro l
      induction l with
      | nil => intro s _; rfl
      | cons o l ih =>
        intro s hs
        obtain ⟨a, b⟩ := tStep_readonly chunk s hs o
        simp only [tRun]
        rw [ih _ b, a]
    rw [this]
    · rfl
    · intro x e
      simp [tOpen, fileOpen] at e
      subst e; exact ⟨rfl, rfl⟩
  · intro s hs
    have : ∀ (l : List BOp) (s : St), NoWrite s.handle → (bRun chunk s l).1.disk = s.disk := by
      intro l
      induction l with
      | nil => intro s _; rfl
      | cons o l ih =>
        intro s hs
        obtain ⟨a, b⟩ := bStep_readonly chunk s hs o
        simp only [bRun]
        rw [ih _ b, a]
    simp [bOpen, fileOpen] at hs
    subst hs
    rw [this]
    intro x e
    cases e; exact ⟨rfl, rfl⟩

/-- **C122.** If the disk does not get full, a binary file behaves like an array of bytes with a
position: all results are those of the ideal file, and after closing the file has its bytes.  This
holds for every size of the buffer. -/
theorem C122_binary (chunk : Nat) (b : Bytes) (mode : Nat) (s : St) (hs : bOpen ⟨b, none⟩ mode = some s)
    (ops : List BOp) :
    (bRun chunk s ops).2 = (iRun (iOpen b mode) ops).2 ∧
    (bStep chunk (bRun chunk s ops).1 .close).1.disk.bytes = (iRun (iOpen b mode) ops).1.bytes := by
  have r : Rel s (iOpen b mode) := by
    unfold bOpen at hs
    unfold iOpen
    split at hs
    · rename_i e
      cases hs
      simp only [e, if_true]
      exact ⟨rfl, rfl, rfl, by simp [fileOpen, splice_nil], fun _ => rfl⟩
    · split at hs
      · rename_i e1 e
        cases hs
        simp only [e]
        exact ⟨rfl, rfl, rfl, by simp [fileOpen, splice_nil], fun _ => rfl⟩
      · split at hs
        · rename_i e1 e2 e
          cases hs
          simp only [e]
          exact ⟨rfl, rfl, rfl, by simp [fileOpen, splice_nil], fun _ => rfl⟩
        · cases hs
  obtain ⟨a, q⟩ := run_rel chunk ops s _ r
  refine ⟨a, ?_⟩
  obtain ⟨_, q2⟩ := (step_rel chunk q .close).2
  generalize (bRun chunk s ops).1 = s' at q q2
  generalize (iRun (iOpen b mode) ops).1 = i' at q q2
  obtain ⟨_, q1⟩ := q
  cases hh : s'.handle with
  | none =>
    rw [hh] at q1
    simp [bStep, hh, q1.2]
  | some h =>
    rw [hh] at q1
    simp only [bStep, hh] at q2
    simp only [bStep, hh]
    rw [q1.2.2.1] 
    have := flush_eq (d := s'.disk) (h := h) (by assumption) q1.1
    simp [fileClose, this]

/-- **C122 finding.** Writing text never reports an error, not even if the file was opened for reading
only or the disk is full. -/
theorem C122_finding_write_errors (chunk : Nat) (s : TSt) (h : Handle) (hs : s.st.handle = some h) (t : Text) :
    (tStep chunk s (.write t)).2 = .unit ∧ (tStep chunk s (.writeLine t)).2 = .unit := by
  simp [tStep, hs]

/-- **C122 finding.** The constructor accepts every name of a codec; what it does not know it takes for
UTF-8. -/
theorem C122_finding_codec (d : Disk) (r w a : Bool) (name : Text) (hn : codecFor name = none) :
    tOpen d r w a name = tOpen d r w a sUtf8 := by
  have : codecFor sUtf8 = some .utf8 := rfl
  simp only [tOpen, hn, this, Option.getD_none, Option.getD_some]

/-- **C122 finding.** Reading from a file that was opened for writing only gives an empty text or no
bytes instead of an error. -/
theorem C122_finding_read_writeonly (chunk : Nat) (d : Disk) (codec : Text) (n : Nat) :
    (tStep chunk (tOpen d false true false codec) .readAll).2 = .text [] ∧
    (∀ s, bOpen d 2 = some s → (bStep chunk s (.read n)).2 = .bytes []) := by
  constructor
  · simp [tStep, tOpen, fileOpen]
  · intro s hs
    simp [bOpen, fileOpen] at hs
    subst hs
    simp [bStep]

/-- **C122.** What is written for a character is its UTF-8 encoding, as other programs expect it. -/
theorem C122_utf8 (c : Char) : enc8 c.toNat = (String.utf8EncodeChar c).map UInt8.toNat := by
  have hv : c.toNat < 1114112 := by
    have h := c.valid
    simp only [UInt32.isValidChar, Nat.isValidChar] at h
    show c.val.toNat < _
    omega
  have e : c.val.toNat = c.toNat := rfl
  unfold String.utf8EncodeChar
  simp only [e, enc8]
  generalize c.toNat = n at hv ⊢
  by_cases h1 : n < 128
  · rw [if_pos h1, if_pos (show n ≤ 127 by omega)]
    simp only [List.map_cons, List.map_nil, UInt8.toNat_ofNat', List.cons.injEq, and_true]
    omega
  rw [if_neg h1, if_neg (show ¬ n ≤ 127 by omega)]
  by_cases h2 : n < 2048
  · rw [if_pos h2, if_pos (show n ≤ 2047 by omega)]
    simp only [List.map_cons, List.map_nil, UInt8.toNat_ofNat', List.cons.injEq, and_true]
    omega
  rw [if_neg h2, if_neg (show ¬ n ≤ 2047 by omega)]
  by_cases h3 : n < 65536
  · rw [if_pos h3, if_pos (show n ≤ 65535 by omega)]
    simp only [List.map_cons, List.map_nil, UInt8.toNat_ofNat', List.cons.injEq, and_true]
    omega
  rw [if_neg h3, if_neg (show ¬ n ≤ 65535 by omega)]
  simp only [List.map_cons, List.map_nil, UInt8.toNat_ofNat', List.cons.injEq, and_true]
  omega

/-- **C122.** An unknown codec changes nothing later; a known one applies from then on. -/
theorem C122_set_codec (chunk : Nat) (s : TSt) (n : Text) :
    (codecFor n = none → (tStep chunk s (.setCodec n)).1 = s) ∧
      ∀ c, codecFor n = some c → s.st.handle ≠ none →
        (tStep chunk s (.setCodec n)).1.codec = c ∧ (tStep chunk s (.setCodec n)).1.st = s.st := by
  cases h : s.st.handle with
  | none => simp [tStep, h]
  | some k =>
    constructor
    · intro e; simp [tStep, h, e]
    · intro c e _; simp [tStep, h, e]

end Verif.TextF
