import Verif.Lsp.Props

/-! Concrete cases for the theorems on the language server, and what the code does wrong. -/

namespace Verif.Lsp

/-- A system that knows two charsets. -/
def charsets (c : List Char) : Bool := c == "utf-8".toList || c == "latin1".toList

/-- Two messages, one with further fields. -/
def twoFrames : List Frame :=
  [⟨[], [], "{\"a\":1}".toList⟩,
   ⟨[.other "X-Trace".toList "on: yes".toList], [.type "text/json".toList "latin1".toList], "{}".toList⟩]

theorem twoFrames_ok : ∀ f ∈ twoFrames, f.Ok charsets := by
  intro f hf
  simp only [twoFrames, List.mem_cons, List.not_mem_nil, or_false] at hf
  rcases hf with rfl | rfl
  · exact ⟨by simp, by simp, by decide⟩
  · refine ⟨?_, ?_, by decide⟩
    · intro x hx
      simp only [List.mem_singleton] at hx
      subst hx
      refine ⟨?_, by decide, by decide, by decide⟩
      simp only [Plain]; decide
    · intro x hx
      simp only [List.mem_singleton] at hx
      subst hx
      refine ⟨?_, ?_, by decide, by decide, by decide⟩ <;> simp only [Plain] <;> decide

/-- The bytes of both in three pieces, and the calls that follow handled messages. -/
def pieces : List (List Char) :=
  [(stream twoFrames).take 5, ((stream twoFrames).drop 5).take 40, [],
   (stream twoFrames).drop 45, []]

/-- Non-vacuity for `C114_delivered` and `C114_all`. -/
example : pieces.flatten = stream twoFrames ∧
    (receiveAll true charsets {} pieces).1.pending = false ∧
    (receiveAll true charsets {} pieces).2 = twoFrames.map Frame.event :=
  ⟨by decide +kernel, by decide +kernel, by decide +kernel⟩

example : (receiveAll true charsets {} pieces).2.filter Event.isMessage = twoFrames.map Frame.event :=
  C114_all charsets twoFrames twoFrames_ok pieces (by decide +kernel) (by decide +kernel)

/-- Non-vacuity for `C114_no_error`: the pieces end in contents. -/
example : (receiveAll true charsets {} [(stream twoFrames).take 23, (stream twoFrames).drop 23, []]).2
    = twoFrames.map Frame.event := by decide +kernel

/-- Non-vacuity for `C114_no_error_plain`. -/
example : (receiveAll true charsets {} ["Content-Len".toList, "gth: 1".toList, "2\r\n\r".toList,
    "\n{\"abc\": 123}".toList]).2 = [.message "{\"abc\": 123}".toList "utf-8".toList] := by
  decide +kernel

/-- Non-vacuity for `C114_overwriting_partial`: one message after the other. -/
example : (receiveAll false charsets {} [sent "{}".toList, [], sent "[]".toList, []]).2
    = [.message "{}".toList "utf-8".toList, .message "[]".toList "utf-8".toList] := by decide +kernel

/-- **C114 finding.** If a write replaces what is behind the position of the buffer, a message whose
    header arrives in two pieces is lost. -/
theorem C114_split_header : ("Content-".toList ++ "Length: 2\r\n\r\n{}".toList) = sent "{}".toList ∧
    (receiveAll false charsets {} ["Content-".toList, "Length: 2\r\n\r\n{}".toList]).2 = [] ∧
    (receiveAll true charsets {} ["Content-".toList, "Length: 2\r\n\r\n{}".toList]).2
      = [.message "{}".toList "utf-8".toList] :=
  ⟨by decide +kernel, by decide +kernel, by decide +kernel⟩

/-- **C114 finding.** In this case a message is also lost if the next one arrives while one that came
    together with it is handled. -/
theorem C114_busy : (receiveAll false charsets {}
      [sent "{}".toList ++ sent "[]".toList, sent "{1}".toList, [], [], []]).2
      = [.message "{}".toList "utf-8".toList, .message "{1}".toList "utf-8".toList] ∧
    (receiveAll true charsets {}
      [sent "{}".toList ++ sent "[]".toList, sent "{1}".toList, [], [], []]).2
      = [.message "{}".toList "utf-8".toList, .message "[]".toList "utf-8".toList,
         .message "{1}".toList "utf-8".toList] :=
  ⟨by decide +kernel, by decide +kernel⟩

/-- **C114 finding.** An error is reported for a correct message if a piece ends before the number. -/
theorem C114_spurious_error :
    (receiveAll true charsets {} ["Content-Length: ".toList, "2\r\n\r\n{}".toList]).2
      = [.parseError (.noInteger []), .message "{}".toList "utf-8".toList] := by decide +kernel

/-- **C114 finding.** The same for a content type that has not arrived completely. -/
theorem C114_spurious_charset :
    (receiveAll true charsets {} ["Content-Length: 2\r\nContent-Type: a; charset=utf".toList,
      "-8\r\n\r\n{}".toList]).2
      = [.parseError (.noCodec "utf".toList), .message "{}".toList "utf-8".toList] := by decide +kernel

/-- **C114 finding.** After a content type with an unknown charset the message is only handled when
    more bytes arrive, although all of it is there. -/
theorem C114_unknown_charset :
    (receiveAll true charsets {} ["Content-Length: 2\r\nContent-Type: a; charset=x\r\n\r\n{}".toList]).2
      = [.parseError (.noCodec "x".toList)] ∧
    (receiveAll true charsets {} ["Content-Length: 2\r\nContent-Type: a; charset=x\r\n\r\n{}".toList]).1.pending
      = false ∧
    (receiveAll true charsets {} ["Content-Length: 2\r\nContent-Type: a; charset=x\r\n\r\n{}".toList, []]).2
      = [.parseError (.noCodec "x".toList), .message "{}".toList "utf-8".toList] :=
  ⟨by decide +kernel, by decide +kernel, by decide +kernel⟩

/-- **C114 finding.** A length that is not a number counts as 0: an empty message is handled. -/
theorem C114_bad_length :
    (receiveAll true charsets {} ["Content-Length: x\r\n\r\n".toList, []]).2
      = [.parseError (.noInteger "x".toList), .message [] "utf-8".toList] := by decide +kernel

/-- **C114 finding.** After a header without a length the messages that came with it are not handled
    until more bytes arrive. -/
theorem C114_no_length :
    (receiveAll true charsets {} ["X: y\r\n\r\n".toList ++ sent "{}".toList]).2 = [] ∧
    (receiveAll true charsets {} ["X: y\r\n\r\n".toList ++ sent "{}".toList]).1.pending = false ∧
    (receiveAll true charsets {} ["X: y\r\n\r\n".toList ++ sent "{}".toList, []]).2
      = [.message "{}".toList "utf-8".toList] :=
  ⟨by decide +kernel, by decide +kernel, by decide +kernel⟩

/-! ### C115 -/

def docText : List Char := "Product {\n    name: \"p\"\n}\n".toList

/-- Non-vacuity for `C115_position`: the end of the second line. -/
example : posOf "Product {\n    name: \"p\"".toList = ⟨1, 13⟩ ∧
    posToOffset ⟨1, 13⟩ docText = 23 := ⟨by decide +kernel, by decide +kernel⟩

/-- A history for `C115_text_partial`: a file is opened, edited twice, saved, edited again. -/
def docHistory : List (Req Nat) :=
  [.didOpen (some (1, docText)),
   .didChange (some (1, [
     (Edit.part "Product {\n    name: \"".toList "p".toList "\"\n}\n".toList "q\n".toList).change,
     (Edit.part "Product {\n".toList "    name".toList ": \"q\n\"\n}\n".toList "".toList).change])),
   .didSave 1,
   .didOpen (some (2, "x".toList)),
   .didClose 2,
   .didChange (some (1, [(Edit.whole "y".toList).change]))]

def docEdits : List Edit :=
  [Edit.part "Product {\n    name: \"".toList "p".toList "\"\n}\n".toList "q\n".toList,
   Edit.part "Product {\n".toList "    name".toList ": \"q\n\"\n}\n".toList "".toList]

theorem docEdits_ok : Edits docText docEdits "Product {\n: \"q\n\"\n}\n".toList := by
  have h1 : docText = "Product {\n    name: \"".toList ++ "p".toList ++ "\"\n}\n".toList := by decide
  rw [h1]
  apply Edits.part
  have h2 : "Product {\n    name: \"".toList ++ "q\n".toList ++ "\"\n}\n".toList
      = "Product {\n".toList ++ "    name".toList ++ ": \"q\n\"\n}\n".toList := by decide
  rw [h2]
  apply Edits.part
  have h3 : "Product {\n".toList ++ "".toList ++ ": \"q\n\"\n}\n".toList
      = "Product {\n: \"q\n\"\n}\n".toList := by decide
  rw [h3]
  exact .nil _

example : ∃ c', ClientRun (fun _ => none) docHistory c' ∧
    c' 1 = some ⟨"Product {\n: \"q\n\"\n}\n".toList, "y".toList⟩ ∧ c' 2 = none := by
  refine ⟨_, .cons (.opened rfl) (.cons (.changed (d := ⟨docText, docText⟩) (es := docEdits) rfl docEdits_ok ?_) (.cons (.saved rfl)
    (.cons (.opened rfl) (.cons (.closed rfl)
      (.cons (.changed (es := [Edit.whole "y".toList]) rfl (.whole (.nil _)) ?_) (.nil _)))))), rfl, rfl⟩
  · intro e he
    simp only [docEdits, List.mem_cons, List.not_mem_nil, or_false] at he
    rcases he with rfl | rfl <;> simp only [Edit.NotInFirstLine] <;> decide
  · intro e he
    simp only [List.mem_singleton] at he
    subst he
    trivial

example : ((handleAll ({ state := .initRequest } : Srv Nat)
    (docHistory.map fun r => (none, r))).1.docs 1).map Document.current = some "y".toList := by
  decide +kernel

/-- Non-vacuity for the findings: a letter is typed into "abc" behind the "a". -/
example : applyChanges "abc".toList [⟨some (⟨0, 1⟩, ⟨0, 1⟩), "X".toList⟩] = ("abXc".toList, false) := by
  decide +kernel

example : applyChanges [] [⟨some (⟨0, 0⟩, ⟨0, 0⟩), "X".toList⟩] = ([], false) := by decide +kernel

example : applyChanges "ab\ncd".toList [⟨some (⟨0, 1⟩, ⟨1, 1⟩), []⟩] = ("abd".toList, false) := by
  decide +kernel

/-- **C115 finding.** A position behind the end of its line is not the end of this line, as the
    protocol demands, but a place in one of the next lines. -/
theorem C115_beyond_line :
    applyChanges "a\nb\ncd".toList [⟨some (⟨1, 3⟩, ⟨1, 3⟩), "X".toList⟩] = ("a\nb\ncXd".toList, false) := by
  decide +kernel

/-- Non-vacuity for `C115_up_to_date`: the third line was changed. -/
example : (Document.mk "a\nb\nc".toList "a\nb\nXc".toList).isPositionUpToDate ⟨1, 1⟩ = true ∧
    (Document.mk "a\nb\nc".toList "a\nb\nXc".toList).isPositionUpToDate ⟨2, 1⟩ = false :=
  ⟨by decide +kernel, by decide +kernel⟩

/-! ### C116 -/

/-- A session with questions before, during and after the time of service. -/
def session : List (Option Nat × Req Nat) :=
  [(some 1, .definition), (some 2, .initialize), (none, .initialized),
   (none, .didOpen (some (1, docText))), (some 3, .completion), (some 4, .initialize),
   (some 5, .other), (some 6, .shutdown), (some 7, .completion)]

/-- Non-vacuity for `C116_answered`, `C116_served`, `C116_documents` and `C116_shutdown`. -/
example : (∀ m ∈ session, m.2.isExit = false) ∧ (∀ m ∈ session, m.2.isRequest = m.1.isSome) ∧
    (handleAll ({} : Srv Nat) session).2 =
      [.error (some 1) .serverNotInitialized, .result (some 2), .result (some 3),
       .error (some 4) .invalidRequest, .error (some 5) .methodNotFound, .result (some 6),
       .error (some 7) .invalidRequest] :=
  ⟨by decide +kernel, by decide +kernel, by decide +kernel⟩

example : Running (session.take 4) :=
  ⟨⟨(some 2, .initialize), by simp [session], rfl⟩, by decide +kernel⟩

/-- **C116 finding.** A notification about a range that does not exist is answered with an error. -/
theorem C116_change_answered : (handleAll ({ state := .initRequest } : Srv Nat)
    [(none, .didOpen (some (1, []))), (none, .didChange (some (1, [⟨some (⟨1, 0⟩, ⟨1, 0⟩), []⟩])))]).2
    = [.error none .invalidParams] := by decide +kernel

/-! ### C117 -/

def isIdChar (c : Char) : Bool := c.isAlphanum || c == '_'

def exampleModules : List Module :=
  [⟨"Qt.core".toList, [("moc".toList, "string".toList, false), ("name".toList, [], true),
      ("mocFlags".toList, "stringList".toList, false)]⟩,
   ⟨"Qt.concurrent".toList, []⟩, ⟨"cpp".toList, [("defines".toList, "stringList".toList, false)]⟩]

/-- Non-vacuity for `C117_offered_partial`: properties of a module, and names of modules. -/
example : complete isIdChar (fun _ _ => false) [exampleModules] "A {\n Qt.core.mo: 1".toList ⟨1, 11⟩
      = some [("moc".toList, "string".toList), ("mocFlags".toList, "stringList".toList)] ∧
    complete isIdChar (fun _ _ => false) [exampleModules] "A {\n Qt.c".toList ⟨1, 5⟩
      = some [("core".toList, []), ("concurrent".toList, [])] ∧
    complete isIdChar (fun _ _ => false) [exampleModules] "A {\n ".toList ⟨1, 1⟩ = none :=
  ⟨by decide +kernel, by decide +kernel, by decide +kernel⟩

example : Typed isIdChar "A {\n Qt.core.mo".toList ["Qt".toList, "core".toList] "mo".toList := by
  refine ⟨"A {\n ".toList, by decide, ⟨?_, ?_⟩, ?_, by decide⟩
  · intro b' c h
    have := congrArg List.getLast? h
    simp at this
    subst this
    decide
  · intro b' c h
    have := congrArg List.getLast? h
    simp at this
  · intro m hm
    simp only [List.mem_cons, List.not_mem_nil, or_false] at hm
    rcases hm with rfl | rfl <;> exact ⟨by decide, by decide⟩

/-- **C117 finding.** In the first line the character behind the cursor is taken for the last one that
    was typed: at the end of the text nothing is offered, and before a word something else. -/
theorem C117_first_line :
    complete isIdChar (fun _ _ => false) [exampleModules] "Qt.c".toList ⟨0, 4⟩ = none ∧
    complete isIdChar (fun _ _ => false) [exampleModules] "Qt.cx".toList ⟨0, 4⟩ = some [] ∧
    complete isIdChar (fun _ _ => false) [exampleModules] "\nQt.cx".toList ⟨1, 4⟩
      = some [("core".toList, []), ("concurrent".toList, [])] :=
  ⟨by decide +kernel, by decide +kernel, by decide +kernel⟩

/-- **C117 finding.** If a module has the name before the last dot, the modules below it are not
    offered. -/
theorem C117_submodule :
    complete isIdChar (fun _ _ => false) [[⟨"a".toList, []⟩, ⟨"a.b".toList, []⟩]] "\na.".toList ⟨1, 2⟩
      = some [] := by decide +kernel

end Verif.Lsp
