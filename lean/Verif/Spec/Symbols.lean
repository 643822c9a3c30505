import Verif.Model.Symbols
/-
What the properties C174-C180 say, without the functions of the model.
-/
namespace Verif.Symbols.Spec

/-- A dotted name. -/
def dotted : List Str → Str
  | [] => []
  | [a] => a
  | a :: b :: l => a ++ '.' :: dotted (b :: l)

/-- Names that can be written with dots. -/
def Names (segs : List Str) : Prop := segs ≠ [] ∧ ∀ a ∈ segs, a ≠ [] ∧ '.' ∉ a

/-- `u` is reached from `v` by the attributes, all of them satisfying `ok`. -/
inductive Reaches {O : Type} (w : World O) (ok : V O → Prop) : V O → List Str → V O → Prop
  | here (v) : Reaches w ok v [] v
  | step (v a x as u) : w.attr v a = some x → ok x → Reaches w ok x as u → Reaches w ok v (a :: as) u

/-- The dotted name `mod ++ path` denotes `v`: `mod` can be imported and `path` leads from there to `v`. -/
def Denotes {O : Type} (w : World O) (ok : V O → Prop) (mod path : List Str) (v : V O) : Prop :=
  ∃ m, w.importMod (dotted mod) = some m ∧ Reaches w ok (.obj m) path v

/-- Neither None nor an object that is false. -/
def Truthy {O : Type} (w : World O) : V O → Prop
  | .none => False
  | .text s => s ≠ []
  | .obj o => w.truthy o = true

/-- What `segs` denotes with the longest module name possible. -/
def Best {O : Type} (w : World O) (segs : List Str) (v : V O) : Prop :=
  ∃ mod path, mod ≠ [] ∧ segs = mod ++ path ∧ Denotes w (Truthy w) mod path v
    ∧ ∀ mod' path' u, segs = mod' ++ path' → mod.length < mod'.length → ¬ Denotes w (Truthy w) mod' path' u

/-- The objects that the type is for. -/
def Of {O : Type} (w : World O) : Ty → O → Prop
  | .importable, _ => True
  | .module, o => w.kind o = .module
  | .function, o => w.kind o = .function
  | .cls, o => w.kind o = .cls
  | .method, o => w.kind o = .method
  | .staticmethod, o => w.kind o = .function
  | .classmethod, o => w.kind o = .method
  | .inst, o => w.kind o ≠ .cls
  | .callable, o => w.callable o = true

/-- The text is a name: neither a builtin, nor changed by evaluation. -/
def Plain {O : Type} (w : World O) (ev : Str → Option Str) (s : Str) : Prop := w.builtins s = none ∧ ev s = some s

end Verif.Symbols.Spec
