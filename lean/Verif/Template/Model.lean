/-! # The module texttemplate

The command of the rule in share/qbs/modules/texttemplate/texttemplate.qbs. -/

namespace Verif.Template

abbrev Text := List Char

/-- The two formats of placeholders (texttemplate.qbs 4-9) -/
inductive Style where
  | dollar
  | at
  deriving Repr, DecidableEq

/-- `\w` -/
def isWord (c : Char) : Bool := c.isAlphanum || c == '_'

/-- What the regular expressions have before, in and behind the group (texttemplate.qbs 34) -/
def Style.opening : Style → Text
  | .dollar => ['$', '{']
  | .at => ['@']
def Style.closing : Style → Char
  | .dollar => '}'
  | .at => '@'
def Style.self : Style → Char
  | .dollar => '$'
  | .at => '@'

/-- The regular expressions (texttemplate.qbs 34), at the beginning of a text: what is matched by the group, and how long the
match is. A word is followed by something that is not part of it, so there is no backtracking. -/
def matchHere (st : Style) (s : Text) : Option (Text × Nat) :=
  if st.opening.isPrefixOf s then
    let r := s.drop st.opening.length
    if [st.self, st.closing].isPrefixOf r then some ([st.self], st.opening.length + 2)
    else
      let n := r.takeWhile isWord
      if n ≠ [] ∧ (r.drop n.length).head? = some st.closing then some (n, st.opening.length + n.length + 1) else none
  else none

/-- An element of `matches`: `match.index`, `match[1]` and `match[0].length` -/
structure Match where
  index : Nat
  name : Text
  length : Nat
  deriving Repr, DecidableEq

/-- The loop that collects the matches (texttemplate.qbs 40-41). `skip` is the number of characters until `lastIndex`. -/
def matchesFrom (st : Style) (skip i : Nat) : Text → List Match
  | [] => []
  | c :: s =>
    match skip with
    | k + 1 => matchesFrom st k (i + 1) s
    | 0 =>
      match matchHere st (c :: s) with
      | some (n, len) => ⟨i, n, len⟩ :: matchesFrom st (len - 1) (i + 1) s
      | none => matchesFrom st 0 (i + 1) s

/-- The dictionary: an object with own properties, given as text, and the properties that all objects have -/
structure Dict where
  own : List (Text × Text)
  inherited : List (Text × Text)

def find (k : Text) : List (Text × Text) → Option Text
  | [] => none
  | p :: l => if p.1 = k then some p.2 else find k l

/-- `input.texttemplate.dict[match[1]]`, where `none` is `undefined` -/
def Dict.get (d : Dict) (k : Text) : Option Text := (find k d.own).or (find k d.inherited)

/-- The replacement (texttemplate.qbs 44-56) -/
def replacement (st : Style) (d : Dict) (n : Text) : Option Text :=
  if st = .dollar ∧ n = ['$'] then some ['$']
  else if st ≠ .dollar ∧ n = ['@'] then some ['@']
  else d.get n

/-- One round of the loop that replaces the matches (texttemplate.qbs 42-60). The error has the name of the placeholder. -/
def replaceOne (st : Style) (d : Dict) (m : Match) (line : Text) : Except Text Text :=
  match replacement st d m.name with
  | none => .error m.name
  | some r => .ok (line.take m.index ++ r ++ line.drop (m.index + m.length))

/-- A line (texttemplate.qbs 37-60): the matches are replaced beginning with the last one. -/
def renderLine (st : Style) (d : Dict) (line : Text) : Except Text Text :=
  (matchesFrom st 0 0 line).foldr (fun m r =>
    match r with
    | .error e => .error e
    | .ok l => replaceOne st d m l) (.ok line)

/-- The lines of a file, as `readLine` returns them until `atEof` is true. (See `Verif.TextF` for files; returns are left out.) -/
def fileLines (cur : Option Text) : Text → List Text
  | [] => match cur with | none => [] | some l => [l]
  | c :: s => if c = '\n' then cur.getD [] :: fileLines none s else fileLines (some (cur.getD [] ++ [c])) s

/-- The loop over all lines (texttemplate.qbs 36-62). An error ends it. -/
def renderLines (st : Style) (d : Dict) : List Text → Except Text Text
  | [] => .ok []
  | l :: ls =>
    match renderLine st d l with
    | .error e => .error e
    | .ok t =>
      match renderLines st d ls with
      | .error e => .error e
      | .ok r => .ok (t ++ '\n' :: r)

/-- The contents of the output -/
def render (st : Style) (d : Dict) (template : Text) : Except Text Text := renderLines st d (fileLines none template)

end Verif.Template
