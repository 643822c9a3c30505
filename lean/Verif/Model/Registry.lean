import Verif.Py
/-
Model of `_KeyModifierMapping` (utils.py 160-206) and `Registry` (utils.py 209-239).
-/
namespace Verif.Registry
variable {κ ν υ : Type} [DecidableEq κ] [DecidableEq ν]

/-! ### `_KeyModifierMapping` -/

/-- utils.py 167-171 `__init__`: the items of a plain dictionary assigned one by one under their
modified keys. `f` is the class's `key_modifier` (196-199: `lower`; 203-206: the normalised URI in
lower case); it is an arbitrary function here. -/
def KM.init (f : κ → ν) (temp : AList κ υ) : AList ν υ :=
  temp.foldl (fun d p => d.set (f p.1) p.2) []

/-- utils.py 173-174 `__getitem__`. -/
def KM.getItem (f : κ → ν) (d : AList ν υ) (k : κ) : Res υ :=
  match d.get? (f k) with
  | some v => .ok v
  | none => .error .keyError

/-- utils.py 176-177 `__setitem__`. -/
def KM.setItem (f : κ → ν) (d : AList ν υ) (k : κ) (v : υ) : AList ν υ := d.set (f k) v

/-- utils.py 179-180 `__delitem__`: the resulting state and the exception, if any. -/
def KM.delItem (f : κ → ν) (d : AList ν υ) (k : κ) : AList ν υ × Option Exc :=
  if d.contains (f k) then (d.erase (f k), none) else (d, some .keyError)

/-- utils.py 182-183 `__contains__`. -/
def KM.contains (f : κ → ν) (d : AList ν υ) (k : κ) : Bool := d.contains (f k)
/-- utils.py 185-186 `__iter__`. -/
def KM.iter (d : AList ν υ) : List ν := d.keys
/-- utils.py 188-189 `__len__`. -/
def KM.len (d : AList ν υ) : Nat := d.length

/-- A mutation of such a mapping. -/
inductive KMOp (κ υ : Type) where
  | set (k : κ) (v : υ)
  | del (k : κ)

/-- Running one mutation (an exception is reported to the caller, who goes on). -/
def KM.run (f : κ → ν) (d : AList ν υ) : KMOp κ υ → AList ν υ
  | .set k v => KM.setItem f d k v
  | .del k => (KM.delItem f d k).1

/-! ### `Registry` -/

/-- A hierarchy of registries, numbered in order of construction. `Registry(*parents)`
(utils.py 212-214) receives existing registries, so a parent always has a smaller number. -/
structure Forest where
  parents : Nat → List Nat
  lt : ∀ i, ∀ p ∈ parents i, p < i

/-- The contents `_registry` of all the registries. -/
abbrev Stores (κ υ : Type) := Nat → AList κ υ

/-- Replace the content of one registry. -/
def Stores.upd (st : Stores κ υ) (i : Nat) (d : AList κ υ) : Stores κ υ :=
  fun j => if j = i then d else st j

/-- utils.py 231-234 `register`: set in this registry, then recursively in each parent. -/
def register (F : Forest) (i : Nat) (k : κ) (v : υ) (st : Stores κ υ) : Stores κ υ :=
  (F.parents i).attach.foldl (fun st p => register F p.1 k v st) (st.upd i ((st i).set k v))
termination_by i
decreasing_by exact F.lt i p.1 p.2

/-- utils.py 236-239 `unregister`: `del` in this registry (`KeyError` when absent), then recursively
in each parent; an exception stops the loop, what was deleted stays deleted. -/
def unregister (F : Forest) (i : Nat) (k : κ) (st : Stores κ υ) : Stores κ υ × Option Exc :=
  if (st i).contains k then
    (F.parents i).attach.foldl
      (fun acc p => match acc with
        | (st, none) => unregister F p.1 k st
        | (st, some e) => (st, some e))
      (st.upd i ((st i).erase k), none)
  else (st, some .keyError)
termination_by i
decreasing_by exact F.lt i p.1 p.2

/-- utils.py 219-220 `__getitem__`. -/
def getItem (st : Stores κ υ) (i : Nat) (k : κ) : Res υ :=
  match (st i).get? k with
  | some v => .ok v
  | none => .error .keyError

end Verif.Registry
