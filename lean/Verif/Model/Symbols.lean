import Verif.Val
/-
Model of imported symbols: /repo/ngoschema/types/symbols.py.

Simplifications. What can be imported, the attributes of objects and the builtins are arbitrary (`World`); an import or an
attribute that raises is missing. Values are None, texts and other objects. The evaluation of expressions and templates
is an arbitrary function on texts: None where the expression gives None, the text itself for plain texts. Values are
serialised as they are (`deserialize=False`, as collections do).
-/
namespace Verif.Symbols

/-- A Python value. -/
inductive V (O : Type) where
  | none
  | text (s : Str)
  | obj (o : O)
  deriving DecidableEq

/-- What an object is: a module, a function written in Python, a class, a bound method, the wrapper made by `classmethod`,
anything else. -/
inductive Kind where
  | module
  | function
  | cls
  | method
  | wrapper
  | other
  deriving DecidableEq

/-- The interpreter: `importlib.import_module`, `getattr`, the builtins, and what is known of objects. `moduleOf` is
`__module__` (none if missing or empty), `qualname` is `utils/_qualname.py qualname`. -/
structure World (O : Type) where
  importMod : Str → Option O
  attr : V O → Str → Option (V O)
  builtins : Str → Option (V O)
  truthy : O → Bool
  hashable : O → Bool
  callable : O → Bool
  kind : O → Kind
  nameOf : O → Str
  moduleOf : O → Option Str
  qualname : O → Res Str

/-- The types of the module, by the name under which they are registered. -/
inductive Ty where
  | importable
  | module
  | function
  | cls
  | method
  | staticmethod
  | classmethod
  | inst
  | callable
  deriving DecidableEq

variable {O : Type}

/-- `bool(value)`. -/
def V.truthy (w : World O) : V O → Bool
  | .none => false
  | .text s => s != []
  | .obj o => w.truthy o

/-- `isinstance` of one of the types of `types`. -/
def V.is (w : World O) (k : Kind) : V O → Bool
  | .obj o => w.kind o == k
  | _ => false

/-- symbols.py 64-66, 109-111, 117-119, 126-130, 137-139 `check_symbol`, with 82-125 for `_pyType`; every value is an
instance of its class and has one. `Method.check` (58-62, checker.py 15-24) is the test of the type. -/
def checkSymbol (w : World O) : Ty → V O → Bool
  | .importable, _ => true
  | .module, v => v.is w .module
  | .function, v => v.is w .function
  | .cls, v => v.is w .cls
  | .method, v => v.is w .method
  | .staticmethod, v => v.is w .method
  | .classmethod, v => v.is w .method && v.is w .wrapper
  | .inst, v => !v.is w .cls
  | .callable, .obj o => w.callable o
  | .callable, _ => false

/-- checker.py 15-24 `_check` with the `_pyType` of the type; without one everything passes. -/
def checkType (w : World O) : Ty → V O → Bool
  | .module, v => v.is w .module
  | .function, v => v.is w .function
  | .cls, v => v.is w .cls
  | .method, v => v.is w .method
  | .staticmethod, v => v.is w .method
  | .classmethod, v => v.is w .method
  | _, _ => true

/-- symbols.py 58-62 `Symbol._check`, as the answer of `check`. -/
def check (w : World O) (t : Ty) (v : V O) : Bool := checkSymbol w t v || checkType w t v

/-- symbols.py 35, the positions of the dots. -/
def dots : Nat → Str → List Nat
  | _, [] => []
  | i, c :: s => if c = '.' then i :: dots (i + 1) s else dots (i + 1) s

/-- symbols.py 41-46: attribute by attribute, empty names skipped; a falsy attribute is refused. -/
def walk (w : World O) : V O → List Str → Option (V O)
  | v, [] => some v
  | v, a :: as =>
    if a = [] then walk w v as
    else match w.attr v a with
      | none => none
      | some u => if u.truthy w then walk w u as else none

/-- symbols.py 38-50, one position: `value` is the text evaluated, `typed` the text as given. Whatever is raised is
caught. -/
def tryAt (w : World O) (value : Option Str) (typed : Str) (pos : Nat) : Option (V O) :=
  match value with
  | none => none
  | some value => match w.importMod (value.take pos) with
    | none => none
    | some m => walk w (.obj m) (splitOn '.' (typed.drop (pos + 1)))

/-- symbols.py 33-53: positions backwards; the text is kept if none fits. -/
def importText (w : World O) (ev : Str → Option Str) (typed : Str) : V O :=
  match (dots 0 (typed ++ ['.'])).reverse.findSome? (tryAt w (ev typed) typed) with
  | some v => v
  | none => .text typed

/-- symbols.py 32: `self._builtins.get(value, value)`. -/
def builtin (w : World O) : V O → Res (V O)
  | .none => .ok .none
  | .text s => .ok ((w.builtins s).getD (.text s))
  | .obj o => if w.hashable o then .ok (.obj o) else .error .typeError

/-- symbols.py 54-56. -/
def checked (w : World O) (t : Ty) (v : V O) : Res (V O) :=
  match v with
  | .none => .ok .none
  | v => if checkSymbol w t v then .ok v else .error .conversionError

/-- symbols.py 30-56 `Symbol._convert`. -/
def convert (w : World O) (ev : Str → Option Str) (t : Ty) (v : V O) : Res (V O) :=
  match builtin w v with
  | .error e => .error e
  | .ok (.text s) => checked w t (importText w ev s)
  | .ok u => checked w t u

/-- symbols.py 68-78 `Symbol._serialize`, deserialize=False: a falsy object is left as it is. -/
def serialize (w : World O) (v : V O) : Res (V O) :=
  match v with
  | .none => .ok .none
  | .text s => .ok (.text s)
  | .obj o =>
    if w.truthy o then
      if w.kind o = .module then .ok (.text (w.nameOf o))
      else match w.qualname o with
        | .error e => .error e
        | .ok q => match w.moduleOf o with
          | some m => .ok (.text (m ++ '.' :: q))
          | none => .ok (.text q)
    else .ok (.obj o)

end Verif.Symbols
