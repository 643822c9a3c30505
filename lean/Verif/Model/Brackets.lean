import Verif.Py
/-
Model of `Bracket`, utils.py 542-598. Texts are lists of characters.
-/
namespace Verif.Brackets

/-- utils.py 559-565 `get_brackets(bracket)` for a one-character `bracket`: the pair it belongs to,
`InvalidValue` for an unknown one. -/
def getBrackets (b : Char) : Res (Char × Char) :=
  if b = '(' ∨ b = ')' then .ok ('(', ')')
  else if b = '[' ∨ b = ']' then .ok ('[', ']')
  else if b = '{' ∨ b = '}' then .ok ('{', '}')
  else if b = '<' ∨ b = '>' then .ok ('<', '>')
  else .error .invalidValue

/-- utils.py 553-557 `Bracket(context, pos, bracket)`: the assertions of the constructor. -/
def mkBracket (o c : Char) (context : List Char) (pos : Nat × Nat) : Res (Nat × Nat) :=
  if pos.1 < pos.2 ∧ context[pos.1]? = some o ∧ context[pos.2]? = some c then .ok pos
  else .error .assertionError

/-- utils.py 588-598, the `for` loop of `find_brackets`: `rest` is what is left of the text, `i` the
position, `stack` is `o_brs` (top first), `res` the brackets found so far. -/
def scan (o c : Char) (context : List Char) :
    List Char → Nat → List Nat → List (Nat × Nat) → Res (List (Nat × Nat))
  | [], _, _, res => .ok res
  | s :: rest, i, stack, res =>
    let stack := if s = o then i :: stack else stack
    if s = c then
      match stack with
      | [] => .error .indexError
      | p :: stack => match mkBracket o c context (p, i) with
        | .ok b => scan o c context rest (i + 1) stack (res ++ [b])
        | .error e => .error e
    else scan o c context rest (i + 1) stack res

/-- utils.py 584-598 `find_brackets(context, bracket)`: the positions of the brackets found. -/
def findBrackets (context : List Char) (b : Char) : Res (List (Nat × Nat)) :=
  match getBrackets b with
  | .error e => .error e
  | .ok (o, c) => scan o c context context 0 [] []

/-- utils.py 575-582, the `for` loop of `find_closing_bracket`. -/
def scanClosing (o c : Char) (context : List Char) :
    List Char → Nat → List Nat → Res (Option ((Nat × Nat) × List Char))
  | [], _, _ => .ok none
  | s :: rest, i, stack =>
    let stack := if s = o then i :: stack else stack
    if s = c then
      match stack with
      | [] => .error .indexError
      | p :: stack =>
        if stack.isEmpty then .ok (some ((p, i), (context.take i).drop (p + 1)))
        else scanClosing o c context rest (i + 1) stack
    else scanClosing o c context rest (i + 1) stack

/-- utils.py 573-582 `find_closing_bracket(context, bracket)`. -/
def findClosingBracket (context : List Char) (b : Char) : Res (Option ((Nat × Nat) × List Char)) :=
  match getBrackets b with
  | .error e => .error e
  | .ok (o, c) => scanClosing o c context context 0 []

/-- utils.py 567-568 `self.is_in(other)`. -/
def isIn (self other : Nat × Nat) : Bool := self.1 < other.1 && other.2 > self.2

/-- utils.py 570-571 `content()`. -/
def content (context : List Char) (pos : Nat × Nat) : List Char := (context.take pos.2).drop (pos.1 + 1)

end Verif.Brackets
