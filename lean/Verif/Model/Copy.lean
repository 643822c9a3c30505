import Verif.Val
/-
Copies of objects: protocols/collection_protocol.py 206-207 (`copy`), with what reading and assigning items does to the
data of an instance (118-136, 180-188 and object_protocol.py 371-443).

Simplifications:
* The heap holds objects only. An item is a plain value, or an instance once it has been read: reading a dictionary
  under a property of objects makes an instance of it (`_items_evaluate`) and puts it in `_data`
  (`_set_dataValidated`, 186-187). Every dictionary is taken to be under such a property; other values stay as they are.
* Values assigned are plain, and keys other than the declared ones are allowed.
* Objects are loaded lazily; otherwise creation reads all items.
-/
namespace Verif.Copy

inductive Slot where
  | plain (v : Val)
  | inst (id : Nat)

/-- `next` is the first free identity. -/
structure Heap where
  next : Nat
  data : Nat → AList Str Slot

/-- `self._data[k] = s`. -/
def setSlot (h : Heap) (i : Nat) (k : Str) (s : Slot) : Heap :=
  { h with data := fun j => if j = i then (h.data i).set k s else h.data j }

/-- A new instance with the given data. -/
def alloc (h : Heap) (d : AList Str Slot) : Heap :=
  { next := h.next + 1, data := fun j => if j = h.next then d else h.data j }

/-- The data of an instance made from a dictionary (collection_protocol.py 45). -/
def slots (d : List (Str × Val)) : AList Str Slot := d.map (fun p => (p.1, .plain p.2))

/-- `self[k]`. -/
def readItem (h : Heap) (i : Nat) (k : Str) : Res Slot × Heap :=
  match (h.data i).get? k with
  | none => (.error .keyError, h)
  | some (.plain (.dict d)) => (.ok (.inst h.next), setSlot (alloc h (slots d)) i k (.inst h.next))
  | some s => (.ok s, h)

/-- `self[k1][k2]...`: an object. -/
def walk (h : Heap) (i : Nat) : List Str → Res Nat × Heap
  | [] => (.ok i, h)
  | k :: ks => match readItem h i k with
    | (.error e, h) => (.error e, h)
    | (.ok (.inst j), h) => walk h j ks
    | (.ok (.plain _), h) => (.error .typeError, h)

/-- `self[k1][k2]...[k] = v`. -/
def assign (h : Heap) (i : Nat) (path : List Str) (k : Str) (v : Val) : Res Unit × Heap :=
  match walk h i path with
  | (.error e, h) => (.error e, h)
  | (.ok j, h) => (.ok (), setSlot h j k (.plain v))

/-- collection_protocol.py 206-207. -/
def copy (h : Heap) (o : Nat) : Nat × Heap := (h.next, alloc h (h.data o))

/-- What a program does with an object. -/
inductive Op where
  | read (path : List Str)
  | assign (path : List Str) (k : Str) (v : Val)

def step (h : Heap) (i : Nat) : Op → Heap
  | .read path => (walk h i path).2
  | .assign path k v => (assign h i path k v).2

/-- A program that uses several objects. -/
def run (h : Heap) : List (Nat × Op) → Heap
  | [] => h
  | (i, op) :: l => run (step h i op) l

end Verif.Copy
