import Verif.Model.Keys
import Verif.Num
/-
Model of texts that are expressions or templates: /repo/ngoschema/types/strings.py, types/type.py 35-81,
protocols/converter.py 20-31, utils/jinja2.py 69-93.

Simplifications. The evaluation of expressions and templates is arbitrary (`Env`); it may fail. A template is given to
`variables` as the list of tokens of jinja2's lexer, whose `wrap` makes numbers of the numeric ones. `\w` is an arbitrary
set of characters. Sets of names are lists without order.
-/
namespace Verif.Literal

/-- `eval(text, context)`, `TemplatedString(text)(context)`, and `str(value)`. -/
structure Env where
  eval : Str → Res Val
  render : Str → Res Str
  str : Val → Str

/-- strings.py 46-50 `Expr.check`. -/
def isExpr : Val → Bool
  | .str s => s.head? == some '`'
  | _ => false

/-- strings.py 67-71 `Pattern.check`. -/
def isPattern : Val → Bool
  | .str s => Query.isInfix ['{', '{'] s || Query.isInfix ['{', '%'] s
  | _ => false

/-- A Python class to which values are converted. -/
structure PyType where
  inst : Val → Bool
  make : Val → Res Val

/-- protocols/converter.py 20-31 `Converter._convert` with a `_pyType`. -/
def typeConv (t : PyType) (v : Val) : Res Val :=
  if v = .none then .ok .none
  else if t.inst v then .ok v
  else match t.make v with
    | .error _ => .error .conversionError
    | .ok w => .ok w

/-- `str`. -/
def strType (env : Env) : PyType where
  inst v := match v with | .str _ => true | _ => false
  make v := .ok (.str (env.str v))

/-- `int`: booleans are instances. -/
def intType : PyType where
  inst v := match v with | .int _ => true | .bool _ => true | _ => false
  make v := match v with
    | .str s => match parseInt s with
      | some i => .ok (.int i)
      | none => .error .valueError
    | _ => .error .typeError

/-- strings.py 52-58 `Expr._convert` and 73-78 `Pattern._convert`. -/
def evalText (env : Env) (v : Val) (s : Str) : Res Val :=
  if isExpr v then match env.eval (s.drop 1) with
    | .error e => .error e
    | .ok r => typeConv (strType env) r
  else if isPattern v then match env.render s with
    | .error e => .error e
    | .ok r => .ok (.str r)
  else .ok v

/-- type.py 67-81 `Primitive._convert`: an evaluation that fails is logged. -/
def convert (env : Env) (t : PyType) (raw : Bool) (v : Val) : Res Val :=
  if raw then .ok v
  else match v with
    | .str s => if s = [] then typeConv t v else match evalText env v s with
      | .error _ => typeConv t v
      | .ok w => typeConv t w
    | v => typeConv t v

/-- `[a-zA-Z_]`. -/
def nameStart (c : Char) : Bool := ('a' ≤ c && c ≤ 'z') || ('A' ≤ c && c ≤ 'Z') || c == '_'

/-- `[\w\.]`. -/
def nameRest (word : Char → Bool) (c : Char) : Bool := word c || c == '.'

/-- strings.py 44, `re.compile(r"[a-zA-Z_]+[\w\.]*").findall(text)`; `cur` is the match being read, reversed. -/
def findAll (word : Char → Bool) : Option Str → Str → List Str
  | none, [] => []
  | some m, [] => [m.reverse]
  | none, c :: s => if nameStart c then findAll word (some [c]) s else findAll word none s
  | some m, c :: s => if nameRest word c then findAll word (some (c :: m)) s else m.reverse :: findAll word none s

/-- strings.py 60-62 `Expr._inputs`. -/
def exprInputs (word : Char → Bool) (builtins : List Str) (s : Str) : List Str :=
  (findAll word none s).filter fun n => !builtins.contains n

/-- A token of jinja2's lexer: `{{`, `}}`, a pipe, a name, an operator `.`, an integer, a float, anything else with its
text. The value of an integer or a float is a number, that of the others a text. -/
inductive Tok where
  | varBegin
  | varEnd
  | pipe
  | name (s : Str)
  | dot
  | int (n : Nat)
  | float
  | other (s : Str)
  deriving DecidableEq

/-- The value of a token, none for numbers. -/
def Tok.text : Tok → Option Str
  | .varBegin => some ['{', '{']
  | .varEnd => some ['}', '}']
  | .pipe => some ['|']
  | .name s => some s
  | .dot => some ['.']
  | .int _ => none
  | .float => none
  | .other s => some s

/-- `''.join(var)`, from the values last one first; a number is refused. -/
def join : List (Option Str) → Res Str
  | [] => .ok []
  | none :: _ => .error .typeError
  | some t :: var => match join var with
    | .error e => .error e
    | .ok s => .ok (s ++ t)

/-- jinja2.py 77-91, the loop over the tokens. `var` holds the values read for the current variable, last one first;
`none` when no variable is being read (the list is empty then). -/
def scan : Option (List (Option Str)) → List Tok → Res (List Str)
  | _, [] => .ok []
  | none, .varBegin :: ts => scan (some []) ts
  | none, _ :: ts => scan none ts
  | some var, t :: ts =>
    if t = .varBegin then scan (some var) ts
    else if t = .varEnd ∨ t.text = some ['|'] then match join var with
      | .error e => .error e
      | .ok s => match scan none ts with
        | .error e => .error e
        | .ok vs => .ok (s :: vs)
    else match t with
      | .int n => match var with
        | [] => .error .indexError
        | x :: rest => if x = some ['.'] then scan (some (some ('[' :: showNat n ++ [']']) :: rest)) ts
          else scan (some (none :: var)) ts
      | t => scan (some (t.text :: var)) ts

/-- `text.replace(old, '')`, `old` not empty; the number is how many characters are still to be skipped. -/
def remove (old : Str) : Nat → Str → Str
  | _, [] => []
  | k + 1, _ :: s => remove old k s
  | 0, c :: s => if old.isPrefixOf (c :: s) then remove old (old.length - 1) s else c :: remove old 0 s

/-- jinja2.py 92-93. -/
def unThis (s : Str) : Str := remove "self.".toList 0 (remove "this.".toList 0 s)

/-- jinja2.py 69-93 `get_jinja2_variables(source)`. -/
def variables (ts : List Tok) : Res (List Str) :=
  match scan none ts with
  | .error e => .error e
  | .ok vs => .ok (vs.map unThis)

/-- type.py 56-65 `Primitive._inputs`; `lex` is jinja2's lexer. -/
def inputs (word : Char → Bool) (builtins : List Str) (lex : Str → Res (List Tok)) (raw : Bool) : Val → Res (List Str)
  | .str s => if raw then .ok []
    else if isPattern (.str s) then match lex s with
      | .error e => .error e
      | .ok ts => variables ts
    else if isExpr (.str s) then .ok (exprInputs word builtins s)
    else .ok []
  | _ => .ok []

end Verif.Literal
