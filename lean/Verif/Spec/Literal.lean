import Verif.Model.Literal
/-
What the properties C161-C166 say, without the functions of the model.
-/
namespace Verif.Literal.Spec

/-- `n` stands in `s` as a name: it starts with a character that can start a name, is made of word characters, and is
neither continued on its right, nor continued or preceded by a dot on its left. -/
def Reads (start word : Char → Bool) (s n : Str) : Prop :=
  ∃ a b, s = a ++ n ++ b
    ∧ (∃ c n', n = c :: n' ∧ start c = true)
    ∧ (∀ c ∈ n, word c = true)
    ∧ (∀ c, a.getLast? = some c → word c = false ∧ c ≠ '.')
    ∧ (∀ c, b.head? = some c → word c = false)

/-- The value of a text depends only on what the names standing in it mean. -/
def OnlyReads (start word : Char → Bool) (ev : (Str → Option Val) → Str → Res Val) : Prop :=
  ∀ s c c', (∀ n, Reads start word s n → c n = c' n) → ev c s = ev c' s

/-- ASCII letters and the underscore. -/
def ascii (c : Char) : Bool := c.isAlpha || c == '_'

/-- The first component of a dotted name. -/
def first (s : Str) : Str := s.takeWhile (· != '.')

/-- A member of a path: `.name`, or `.0`. -/
inductive Member where
  | name (s : Str)
  | item (n : Nat)

/-- The path as it is looked up: `a.b[0].c`. -/
def Member.path : List Member → Str
  | [] => []
  | .name s :: ms => '.' :: s ++ path ms
  | .item n :: ms => '[' :: showNat n ++ ']' :: path ms

/-- The tokens of a path. -/
def Member.toks : List Member → List Tok
  | [] => []
  | .name s :: ms => .dot :: .name s :: toks ms
  | .item n :: ms => .dot :: .int n :: toks ms

/-- How a variable refers to the object: not at all, by `this.`, or by `self.`. -/
inductive Owner where
  | none
  | this
  | self

def Owner.toks : Owner → List Tok
  | .none => []
  | .this => [.name "this".toList, .dot]
  | .self => [.name "self".toList, .dot]

/-- A piece of a template: a token out of the variables, or a variable given by a path, that may go through filters
given by their tokens. -/
inductive Piece where
  | out (t : Tok)
  | var (o : Owner) (name : Str) (path : List Member) (filters : Option (List Tok))

/-- The tokens of a template. -/
def Piece.toks : List Piece → List Tok
  | [] => []
  | .out t :: ps => t :: toks ps
  | .var o n path none :: ps => .varBegin :: (o.toks ++ .name n :: Member.toks path) ++ .varEnd :: toks ps
  | .var o n path (some fs) :: ps =>
    .varBegin :: (o.toks ++ .name n :: Member.toks path) ++ .pipe :: fs ++ .varEnd :: toks ps

/-- The variables a template reads. -/
def Piece.reads : List Piece → List Str
  | [] => []
  | .out _ :: ps => reads ps
  | .var _ n path _ :: ps => (n ++ Member.path path) :: reads ps

/-- The pieces are as jinja2 reads them: a variable starts in a variable only, and a name has no pipe. The path does
not have `this.` or `self.`. -/
def Piece.Ok : List Piece → Prop
  | [] => True
  | .out t :: ps => t ≠ .varBegin ∧ Ok ps
  | .var _ n path fs :: ps => (n ≠ ['|'] ∧ ∀ s, .name s ∈ path → s ≠ ['|'])
    ∧ (¬ "this.".toList <:+: n ++ Member.path path ∧ ¬ "self.".toList <:+: n ++ Member.path path)
    ∧ (∀ l, fs = some l → Tok.varBegin ∉ l) ∧ Ok ps

end Verif.Literal.Spec
