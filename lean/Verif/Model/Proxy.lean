import Verif.Val
/-
Asking for instances of a class that stands for one under construction: /repo/ngoschema/protocols/type_proxy.py 14-37, 73-81
(`TypeProxy.build` of a schema of type object or array, `proxy_type`, `__subclasshook__`) with the registry of
managers/type_builder.py 88-95.

`ObjectProtocol` and `ArrayProtocol` are abstract base classes, so the class of a proxy has the metaclass `ABCMeta` of Python,
which remembers answers: its two methods are modelled after the documentation and source of the module `abc` (trusted).
Simplifications: one proxy; classes are numbers, with a fixed relation of subclasses; the proxy has no subclasses of its own and
none are registered with it; classes are not freed; the metaclass's `__instancecheck__` is what `isinstance` calls (the class
method of the same name in type_proxy.py 73-76 is not called).
-/
namespace Verif.Proxy

/-- What `ABCMeta` remembers of a class: the classes known to be subclasses, those known not to be, and the number of
registrations when these were noted. -/
structure Memo where
  yes : List Nat
  no : List Nat
  ver : Nat

/-- `reg`: the class of the registry under the uri of the proxy; `counter`: the number of registrations with any abstract class. -/
structure St where
  memo : Memo
  counter : Nat
  reg : Option Nat

/-- A proxy as `TypeProxy.build` makes it (type_proxy.py 11-28): nothing is remembered, the class is under construction. -/
def fresh (counter : Nat) : St := ⟨⟨[], [], counter⟩, counter, none⟩

/-- type_proxy.py 33-36 `proxy_type` and 78-81 `__subclasshook__`. -/
def hook (sub : Nat → Nat → Bool) (reg : Option Nat) (c : Nat) : Bool :=
  match reg with
  | some k => sub c k
  | none => false

/-- `ABCMeta.__subclasscheck__`. -/
def subclassCheck (sub : Nat → Nat → Bool) (s : St) (c : Nat) : Bool × St :=
  if c ∈ s.memo.yes then (true, s)
  else
    let no := if s.memo.ver < s.counter then [] else s.memo.no
    if c ∈ no then (false, { s with memo := ⟨s.memo.yes, no, s.counter⟩ })
    else if hook sub s.reg c then (true, { s with memo := ⟨c :: s.memo.yes, no, s.counter⟩ })
    else (false, { s with memo := ⟨s.memo.yes, c :: no, s.counter⟩ })

/-- `ABCMeta.__instancecheck__`, of an instance whose class is `c`. -/
def instanceCheck (sub : Nat → Nat → Bool) (s : St) (c : Nat) : Bool × St :=
  if c ∈ s.memo.yes then (true, s)
  else if s.memo.ver = s.counter ∧ c ∈ s.memo.no then (false, s)
  else subclassCheck sub s c

/-- What happens: a question, the end of the construction (type_builder.py 93-94), a registration with any abstract class. -/
inductive Op where
  | issubclass (c : Nat)
  | isinstance (c : Nat)
  | build (k : Nat)
  | register
  deriving DecidableEq

def step (sub : Nat → Nat → Bool) (s : St) : Op → St
  | .issubclass c => (subclassCheck sub s c).2
  | .isinstance c => (instanceCheck sub s c).2
  | .build k => { s with reg := some k }
  | .register => { s with counter := s.counter + 1 }

def run (sub : Nat → Nat → Bool) (s : St) (ops : List Op) : St := ops.foldl (step sub) s

end Verif.Proxy
