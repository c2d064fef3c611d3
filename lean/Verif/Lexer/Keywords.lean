/-!
# The keywords of project files

Models src/lib/corelib/parser/qmljskeywords_p.h. The functions `classify2` ... `classify12` are nested
`if`s that compare one character each; they are given as trees.
-/
namespace Verif.Lexer

/-- The tokens for words; the constants that are all `T_RESERVED_WORD`
(src/lib/corelib/parser/qmljslexer_p.h 90-120) are one. -/
inductive Kw where
  | kAs
  | kBreak
  | kCase
  | kCatch
  | kConst
  | kContinue
  | kDebugger
  | kDefault
  | kDelete
  | kDo
  | kElse
  | kFalse
  | kFinally
  | kFor
  | kFunction
  | kIf
  | kImport
  | kIn
  | kInstanceof
  | kNew
  | kNull
  | kOn
  | kProperty
  | kPublic
  | kReadonly
  | kReserved
  | kReturn
  | kSignal
  | kSwitch
  | kThis
  | kThrow
  | kTrue
  | kTry
  | kTypeof
  | kVar
  | kVoid
  | kWhile
  | kWith
deriving DecidableEq, Repr

/-- A nest of `if`s: `test qmlOnly i c yes no` is
`if ((qmlMode &&)? s[i] == c) yes else no`, where leaving all `if`s means `T_IDENTIFIER`. -/
inductive Tree where
  | ident
  | ret (k : Kw)
  /-- `return qmlMode ? a : b` -/
  | retMode (a b : Kw)
  | test (qmlOnly : Bool) (i : Nat) (c : Char) (yes no : Tree)
deriving Repr

/-- What the nested `if`s return for the word `s`; `none` is `T_IDENTIFIER`. -/
def evalTree (qml : Bool) (s : List Char) : Tree → Option Kw
  | .ident => none
  | .ret k => some k
  | .retMode a b => some (if qml then a else b)
  | .test q i c y n =>
    if (q = false ∨ qml = true) ∧ s.getD i '\x00' = c then evalTree qml s y else evalTree qml s n

/-- qmljskeywords_p.h 56-81. -/
def classify2 : Tree :=
  .test false 0 'a' (.test false 1 's' (.retMode .kAs .kReserved)
      .ident)
    (.test false 0 'd' (.test false 1 'o' (.ret .kDo)
        .ident)
      (.test false 0 'i' (.test false 1 'f' (.ret .kIf)
          (.test false 1 'n' (.ret .kIn)
            .ident))
        (.test true 0 'o' (.test false 1 'n' (.ret .kOn)
            .ident)
          .ident)))

/-- qmljskeywords_p.h 83-120. -/
def classify3 : Tree :=
  .test false 0 'f' (.test false 1 'o' (.test false 2 'r' (.ret .kFor)
        .ident)
      .ident)
    (.test false 0 'i' (.test false 1 'n' (.test false 2 't' (.ret .kReserved)
          .ident)
        .ident)
      (.test false 0 'n' (.test false 1 'e' (.test false 2 'w' (.ret .kNew)
            .ident)
          .ident)
        (.test false 0 't' (.test false 1 'r' (.test false 2 'y' (.ret .kTry)
              .ident)
            .ident)
          (.test false 0 'v' (.test false 1 'a' (.test false 2 'r' (.ret .kVar)
                .ident)
              .ident)
            .ident))))

/-- qmljskeywords_p.h 122-226. -/
def classify4 : Tree :=
  .test false 0 'b' (.test false 1 'y' (.test false 2 't' (.test false 3 'e' (.ret .kReserved)
          .ident)
        .ident)
      .ident)
    (.test false 0 'c' (.test false 1 'a' (.test false 2 's' (.test false 3 'e' (.ret .kCase)
            .ident)
          .ident)
        (.test false 1 'h' (.test false 2 'a' (.test false 3 'r' (.ret .kReserved)
              .ident)
            .ident)
          .ident))
      (.test false 0 'e' (.test false 1 'l' (.test false 2 's' (.test false 3 'e' (.ret .kElse)
              .ident)
            .ident)
          (.test false 1 'n' (.test false 2 'u' (.test false 3 'm' (.ret .kReserved)
                .ident)
              .ident)
            .ident))
        (.test false 0 'g' (.test false 1 'o' (.test false 2 't' (.test false 3 'o' (.ret .kReserved)
                .ident)
              .ident)
            .ident)
          (.test false 0 'l' (.test false 1 'o' (.test false 2 'n' (.test false 3 'g' (.ret .kReserved)
                  .ident)
                .ident)
              .ident)
            (.test false 0 'n' (.test false 1 'u' (.test false 2 'l' (.test false 3 'l' (.ret .kNull)
                    .ident)
                  .ident)
                .ident)
              (.test false 0 't' (.test false 1 'h' (.test false 2 'i' (.test false 3 's' (.ret .kThis)
                      .ident)
                    .ident)
                  (.test false 1 'r' (.test false 2 'u' (.test false 3 'e' (.ret .kTrue)
                        .ident)
                      .ident)
                    .ident))
                (.test false 0 'v' (.test false 1 'o' (.test false 2 'i' (.test false 3 'd' (.ret .kVoid)
                        .ident)
                      .ident)
                    .ident)
                  (.test false 0 'w' (.test false 1 'i' (.test false 2 't' (.test false 3 'h' (.ret .kWith)
                          .ident)
                        .ident)
                      .ident)
                    .ident))))))))

/-- qmljskeywords_p.h 228-341. -/
def classify5 : Tree :=
  .test false 0 'b' (.test false 1 'r' (.test false 2 'e' (.test false 3 'a' (.test false 4 'k' (.ret .kBreak)
            .ident)
          .ident)
        .ident)
      .ident)
    (.test false 0 'c' (.test false 1 'a' (.test false 2 't' (.test false 3 'c' (.test false 4 'h' (.ret .kCatch)
              .ident)
            .ident)
          .ident)
        (.test false 1 'l' (.test false 2 'a' (.test false 3 's' (.test false 4 's' (.ret .kReserved)
                .ident)
              .ident)
            .ident)
          (.test false 1 'o' (.test false 2 'n' (.test false 3 's' (.test false 4 't' (.ret .kConst)
                  .ident)
                .ident)
              .ident)
            .ident)))
      (.test false 0 'f' (.test false 1 'a' (.test false 2 'l' (.test false 3 's' (.test false 4 'e' (.ret .kFalse)
                .ident)
              .ident)
            .ident)
          (.test false 1 'i' (.test false 2 'n' (.test false 3 'a' (.test false 4 'l' (.ret .kReserved)
                  .ident)
                .ident)
              .ident)
            (.test false 1 'l' (.test false 2 'o' (.test false 3 'a' (.test false 4 't' (.ret .kReserved)
                    .ident)
                  .ident)
                .ident)
              .ident)))
        (.test false 0 's' (.test false 1 'h' (.test false 2 'o' (.test false 3 'r' (.test false 4 't' (.ret .kReserved)
                  .ident)
                .ident)
              .ident)
            (.test false 1 'u' (.test false 2 'p' (.test false 3 'e' (.test false 4 'r' (.ret .kReserved)
                    .ident)
                  .ident)
                .ident)
              .ident))
          (.test false 0 't' (.test false 1 'h' (.test false 2 'r' (.test false 3 'o' (.test false 4 'w' (.ret .kThrow)
                    .ident)
                  .ident)
                .ident)
              .ident)
            (.test false 0 'w' (.test false 1 'h' (.test false 2 'i' (.test false 3 'l' (.test false 4 'e' (.ret .kWhile)
                      .ident)
                    .ident)
                  .ident)
                .ident)
              .ident)))))

/-- qmljskeywords_p.h 343-493. -/
def classify6 : Tree :=
  .test false 0 'd' (.test false 1 'e' (.test false 2 'l' (.test false 3 'e' (.test false 4 't' (.test false 5 'e' (.ret .kDelete)
              .ident)
            .ident)
          .ident)
        .ident)
      (.test false 1 'o' (.test false 2 'u' (.test false 3 'b' (.test false 4 'l' (.test false 5 'e' (.ret .kReserved)
                .ident)
              .ident)
            .ident)
          .ident)
        .ident))
    (.test false 0 'e' (.test false 1 'x' (.test false 2 'p' (.test false 3 'o' (.test false 4 'r' (.test false 5 't' (.ret .kReserved)
                .ident)
              .ident)
            .ident)
          .ident)
        .ident)
      (.test false 0 'i' (.test false 1 'm' (.test false 2 'p' (.test false 3 'o' (.test false 4 'r' (.test false 5 't' (.retMode .kImport .kReserved)
                  .ident)
                .ident)
              .ident)
            .ident)
          .ident)
        (.test false 0 'n' (.test false 1 'a' (.test false 2 't' (.test false 3 'i' (.test false 4 'v' (.test false 5 'e' (.ret .kReserved)
                    .ident)
                  .ident)
                .ident)
              .ident)
            .ident)
          (.test false 0 'p' (.test false 1 'u' (.test false 2 'b' (.test false 3 'l' (.test false 4 'i' (.test false 5 'c' (.retMode .kPublic .kReserved)
                      .ident)
                    .ident)
                  .ident)
                .ident)
              .ident)
            (.test false 0 'r' (.test false 1 'e' (.test false 2 't' (.test false 3 'u' (.test false 4 'r' (.test false 5 'n' (.ret .kReturn)
                        .ident)
                      .ident)
                    .ident)
                  .ident)
                .ident)
              (.test false 0 's' (.test true 1 'i' (.test false 2 'g' (.test false 3 'n' (.test false 4 'a' (.test false 5 'l' (.ret .kSignal)
                          .ident)
                        .ident)
                      .ident)
                    .ident)
                  (.test false 1 't' (.test false 2 'a' (.test false 3 't' (.test false 4 'i' (.test false 5 'c' (.ret .kReserved)
                            .ident)
                          .ident)
                        .ident)
                      .ident)
                    (.test false 1 'w' (.test false 2 'i' (.test false 3 't' (.test false 4 'c' (.test false 5 'h' (.ret .kSwitch)
                              .ident)
                            .ident)
                          .ident)
                        .ident)
                      .ident)))
                (.test false 0 't' (.test false 1 'h' (.test false 2 'r' (.test false 3 'o' (.test false 4 'w' (.test false 5 's' (.ret .kReserved)
                            .ident)
                          .ident)
                        .ident)
                      .ident)
                    (.test false 1 'y' (.test false 2 'p' (.test false 3 'e' (.test false 4 'o' (.test false 5 'f' (.ret .kTypeof)
                              .ident)
                            .ident)
                          .ident)
                        .ident)
                      .ident))
                  .ident)))))))

/-- qmljskeywords_p.h 495-585. -/
def classify7 : Tree :=
  .test false 0 'b' (.test false 1 'o' (.test false 2 'o' (.test false 3 'l' (.test false 4 'e' (.test false 5 'a' (.test false 6 'n' (.ret .kReserved)
                .ident)
              .ident)
            .ident)
          .ident)
        .ident)
      .ident)
    (.test false 0 'd' (.test false 1 'e' (.test false 2 'f' (.test false 3 'a' (.test false 4 'u' (.test false 5 'l' (.test false 6 't' (.ret .kDefault)
                  .ident)
                .ident)
              .ident)
            .ident)
          .ident)
        .ident)
      (.test false 0 'e' (.test false 1 'x' (.test false 2 't' (.test false 3 'e' (.test false 4 'n' (.test false 5 'd' (.test false 6 's' (.ret .kReserved)
                    .ident)
                  .ident)
                .ident)
              .ident)
            .ident)
          .ident)
        (.test false 0 'f' (.test false 1 'i' (.test false 2 'n' (.test false 3 'a' (.test false 4 'l' (.test false 5 'l' (.test false 6 'y' (.ret .kFinally)
                      .ident)
                    .ident)
                  .ident)
                .ident)
              .ident)
            .ident)
          (.test false 0 'p' (.test false 1 'a' (.test false 2 'c' (.test false 3 'k' (.test false 4 'a' (.test false 5 'g' (.test false 6 'e' (.ret .kReserved)
                        .ident)
                      .ident)
                    .ident)
                  .ident)
                .ident)
              (.test false 1 'r' (.test false 2 'i' (.test false 3 'v' (.test false 4 'a' (.test false 5 't' (.test false 6 'e' (.ret .kReserved)
                          .ident)
                        .ident)
                      .ident)
                    .ident)
                  .ident)
                .ident))
            .ident))))

/-- qmljskeywords_p.h 587-708. -/
def classify8 : Tree :=
  .test false 0 'a' (.test false 1 'b' (.test false 2 's' (.test false 3 't' (.test false 4 'r' (.test false 5 'a' (.test false 6 'c' (.test false 7 't' (.ret .kReserved)
                  .ident)
                .ident)
              .ident)
            .ident)
          .ident)
        .ident)
      .ident)
    (.test false 0 'c' (.test false 1 'o' (.test false 2 'n' (.test false 3 't' (.test false 4 'i' (.test false 5 'n' (.test false 6 'u' (.test false 7 'e' (.ret .kContinue)
                    .ident)
                  .ident)
                .ident)
              .ident)
            .ident)
          .ident)
        .ident)
      (.test false 0 'd' (.test false 1 'e' (.test false 2 'b' (.test false 3 'u' (.test false 4 'g' (.test false 5 'g' (.test false 6 'e' (.test false 7 'r' (.ret .kDebugger)
                      .ident)
                    .ident)
                  .ident)
                .ident)
              .ident)
            .ident)
          .ident)
        (.test false 0 'f' (.test false 1 'u' (.test false 2 'n' (.test false 3 'c' (.test false 4 't' (.test false 5 'i' (.test false 6 'o' (.test false 7 'n' (.ret .kFunction)
                        .ident)
                      .ident)
                    .ident)
                  .ident)
                .ident)
              .ident)
            .ident)
          (.test true 0 'p' (.test false 1 'r' (.test false 2 'o' (.test false 3 'p' (.test false 4 'e' (.test false 5 'r' (.test false 6 't' (.test false 7 'y' (.ret .kProperty)
                          .ident)
                        .ident)
                      .ident)
                    .ident)
                  .ident)
                .ident)
              .ident)
            (.test true 0 'r' (.test false 1 'e' (.test false 2 'a' (.test false 3 'd' (.test false 4 'o' (.test false 5 'n' (.test false 6 'l' (.test false 7 'y' (.ret .kReadonly)
                            .ident)
                          .ident)
                        .ident)
                      .ident)
                    .ident)
                  .ident)
                .ident)
              (.test false 0 'v' (.test false 1 'o' (.test false 2 'l' (.test false 3 'a' (.test false 4 't' (.test false 5 'i' (.test false 6 'l' (.test false 7 'e' (.ret .kReserved)
                              .ident)
                            .ident)
                          .ident)
                        .ident)
                      .ident)
                    .ident)
                  .ident)
                .ident))))))

/-- qmljskeywords_p.h 710-769. -/
def classify9 : Tree :=
  .test false 0 'i' (.test false 1 'n' (.test false 2 't' (.test false 3 'e' (.test false 4 'r' (.test false 5 'f' (.test false 6 'a' (.test false 7 'c' (.test false 8 'e' (.ret .kReserved)
                    .ident)
                  .ident)
                .ident)
              .ident)
            .ident)
          .ident)
        .ident)
      .ident)
    (.test false 0 'p' (.test false 1 'r' (.test false 2 'o' (.test false 3 't' (.test false 4 'e' (.test false 5 'c' (.test false 6 't' (.test false 7 'e' (.test false 8 'd' (.ret .kReserved)
                      .ident)
                    .ident)
                  .ident)
                .ident)
              .ident)
            .ident)
          .ident)
        .ident)
      (.test false 0 't' (.test false 1 'r' (.test false 2 'a' (.test false 3 'n' (.test false 4 's' (.test false 5 'i' (.test false 6 'e' (.test false 7 'n' (.test false 8 't' (.ret .kReserved)
                        .ident)
                      .ident)
                    .ident)
                  .ident)
                .ident)
              .ident)
            .ident)
          .ident)
        .ident))

/-- qmljskeywords_p.h 771-813. -/
def classify10 : Tree :=
  .test false 0 'i' (.test false 1 'm' (.test false 2 'p' (.test false 3 'l' (.test false 4 'e' (.test false 5 'm' (.test false 6 'e' (.test false 7 'n' (.test false 8 't' (.test false 9 's' (.ret .kReserved)
                      .ident)
                    .ident)
                  .ident)
                .ident)
              .ident)
            .ident)
          .ident)
        .ident)
      (.test false 1 'n' (.test false 2 's' (.test false 3 't' (.test false 4 'a' (.test false 5 'n' (.test false 6 'c' (.test false 7 'e' (.test false 8 'o' (.test false 9 'f' (.ret .kInstanceof)
                        .ident)
                      .ident)
                    .ident)
                  .ident)
                .ident)
              .ident)
            .ident)
          .ident)
        .ident))
    .ident

/-- qmljskeywords_p.h 815-842. -/
def classify12 : Tree :=
  .test false 0 's' (.test false 1 'y' (.test false 2 'n' (.test false 3 'c' (.test false 4 'h' (.test false 5 'r' (.test false 6 'o' (.test false 7 'n' (.test false 8 'i' (.test false 9 'z' (.test false 10 'e' (.test false 11 'd' (.ret .kReserved)
                          .ident)
                        .ident)
                      .ident)
                    .ident)
                  .ident)
                .ident)
              .ident)
            .ident)
          .ident)
        .ident)
      .ident)
    .ident

/-- qmljskeywords_p.h 844-858 `Lexer::classify`. -/
def classify (qml : Bool) (s : List Char) : Option Kw :=
  match s.length with
  | 2 => evalTree qml s classify2
  | 3 => evalTree qml s classify3
  | 4 => evalTree qml s classify4
  | 5 => evalTree qml s classify5
  | 6 => evalTree qml s classify6
  | 7 => evalTree qml s classify7
  | 8 => evalTree qml s classify8
  | 9 => evalTree qml s classify9
  | 10 => evalTree qml s classify10
  | 12 => evalTree qml s classify12
  | _ => none

end Verif.Lexer
