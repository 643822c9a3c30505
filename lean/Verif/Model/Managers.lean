import Verif.Py
/-
Model of the namespace manager that names in an object are read with: /repo/ngoschema/contexts/ns_manager_context.py 9-21,
the contexts it is looked for in (/repo/ngoschema/utils/utils.py 122-148, /repo/ngoschema/protocols/context.py 31-41,
/repo/ngoschema/protocols/object_protocol.py 235-237), and its use on identifiers (/repo/ngoschema/types/uri.py 89-99) and
on the keys of foreign keys (/repo/ngoschema/types/foreign_key.py 103-117, 135-138).

A manager is a number. What else contexts hold is left out, as is what the manager makes of a name (Model/Names.lean).
-/
namespace Verif.Managers

/-- A map of a context: a manager, another context, anything else. -/
inductive M where
  | mgr (n : Nat)
  | ctx (maps : List M)
  | other

/-- ns_manager_context.py 9-11 `find_ns_mgr` in a context with these maps; `none` is `default_ns_manager`. -/
def findNsMgr : List M → Option Nat
  | [] => none
  | .mgr n :: _ => some n
  | _ :: ms => findNsMgr ms

/-- utils.py 136-142 `create_child(*parents)`; a context has an empty mapping of its own first (122-125). -/
def createChild (maps parents : List M) : List M :=
  match parents with
  | [] => maps
  | p :: ps => .other :: p :: ps ++ maps

/-- context.py 16 `DEFAULT_CONTEXT`. -/
def defaultMaps : List M := [.other]

/-- How a context came about: `Context(*parents)`; `create_child(*parents)` of another; that of an object made in
another. -/
inductive How where
  | new (parents : List M)
  | child (h : How) (parents : List M)
  | inside (h : How)

/-- object_protocol.py 235-237: `{'this': self}`, the data and the object are put before the maps of the context. -/
def maps : How → List M
  | .new ps => .other :: ps
  | .child h ps => createChild (maps h) ps
  | .inside h => createChild (maps h) [.other, .other, .other]

/-- uri.py 92 `Id._convert` of a property of an object with this context. -/
def idManager (h : How) : Option Nat := findNsMgr (maps h)

/-- foreign_key.py 137-138 `ForeignKey._evaluate` with this context: the manager used for keys that are identifiers. The
context is passed as a map, `context=None` stands for `DEFAULT_CONTEXT` (context.py 33-35). -/
def keyManager (h : How) : Option Nat := findNsMgr (createChild defaultMaps [.ctx (maps h)])

/-- An object: the maps of its context, and the manager it keeps. -/
structure Obj where
  maps : List M
  kept : Option Nat

/-- ns_manager_context.py 17-19 `set_context`. -/
def make (h : How) : Obj := ⟨maps (.inside h), findNsMgr (maps (.inside h))⟩

/-- utils.py 144-145 `prepend` on the context of the object. -/
def prepend (o : Obj) (m : M) : Obj := { o with maps := m :: o.maps }

end Verif.Managers
