import Verif.Val
/-
Class properties: /repo/ngoschema/decorators.py 281-309 (`ClassPropertyDescriptor`, `classproperty`), with the lookup of
attributes by Python in the classes of a resolution order and in instances.

Simplifications. A class has its own attributes; the state of a program maps classes to these. A getter is a function of the
class and the state (it may read other attributes), a setter changes the state; both are wrapped as class methods (299-300,
306-307), so that the class is what they are given. Metaclasses have no data descriptor of the name, which makes an
assignment to the class replace what the class has under the name.
-/
namespace Verif.ClassProps

abbrev Cls := Nat

/-- What is stored under a name in a class: a plain value, or a class property by its number. -/
inductive Slot where
  | value (v : Val)
  | prop (id : Nat)
deriving DecidableEq, Repr


/-- The attributes of all classes. -/
abbrev Attrs := Cls → AList Str Slot

/-- A program: the resolution order of classes, and class properties with a getter and, perhaps, a setter. `box` is what
getters and setters work on. -/
structure Prog (σ : Type) where
  mro : Cls → List Cls
  getter : Nat → Cls → σ → Res Val
  setter : Nat → Option (Cls → Val → σ → Res Unit × σ)

/-- The attributes of classes, those of instances (by number), and the rest. -/
structure St (σ : Type) where
  attrs : Attrs
  inst : Nat → AList Str Val
  box : σ

/-- The lookup of a name in the classes of an order. -/
def lookup (attrs : Attrs) (name : Str) : List Cls → Option Slot
  | [] => none
  | c :: cs => match AList.get? (attrs c) name with
    | some s => some s
    | none => lookup attrs name cs

variable {σ : Type}

/-- `c.name`: decorators.py 287-290 for a class property. -/
def getClass (p : Prog σ) (s : St σ) (c : Cls) (name : Str) : Res Val :=
  match lookup s.attrs name (p.mro c) with
  | none => .error .attributeError
  | some (.value v) => .ok v
  | some (.prop i) => p.getter i c s.box

/-- `o.name`, of an instance `o` of the class `c`: a class property has `__set__`, so it comes before what the instance
has; a plain value comes after. -/
def getInst (p : Prog σ) (s : St σ) (c : Cls) (o : Nat) (name : Str) : Res Val :=
  match lookup s.attrs name (p.mro c) with
  | some (.prop i) => p.getter i c s.box
  | some (.value v) => .ok ((AList.get? (s.inst o) name).getD v)
  | none => match AList.get? (s.inst o) name with
    | some v => .ok v
    | none => .error .attributeError

/-- `o.name = v`: decorators.py 292-296 for a class property. -/
def setInst (p : Prog σ) (s : St σ) (c : Cls) (o : Nat) (name : Str) (v : Val) : Res Unit × St σ :=
  match lookup s.attrs name (p.mro c) with
  | some (.prop i) => match p.setter i with
    | none => (.error .attributeError, s)
    | some f => match f c v s.box with
      | (r, b) => (r, { s with box := b })
  | _ => (.ok (), { s with inst := fun x => if x = o then AList.set (s.inst o) name v else s.inst x })

/-- `c.name = v`. -/
def setClass (s : St σ) (c : Cls) (name : Str) (v : Val) : Res Unit × St σ :=
  (.ok (), { s with attrs := fun x => if x = c then AList.set (s.attrs c) name (.value v) else s.attrs x })

end Verif.ClassProps
