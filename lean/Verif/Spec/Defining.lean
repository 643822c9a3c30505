import Verif.Model.Defining
import Verif.Spec.Builder
/-
What class statements ought to do (C337-C339).
-/
namespace Verif.Defining
open Verif.Builder (Id Cls St Cfg Schema)

/-- The class statement ends with `out`, whatever the depth of calls it takes. -/
def Defines (read : Kw → Schema) (cfg : Cfg) (docs : AList Id Val) (c : Stmt) (s : St) (out : Res Cls)
    (docs' : AList Id Val) (own' : Option Kw) (s' : St) : Prop :=
  ∃ n, define read cfg n docs c s = some (out, docs', own', s')

/-- The schema is the one in the body of the class. -/
def FromBody (c : Stmt) (d : Kw) : Prop := c.own = some d ∧ d ≠ []

/-- The schema is the registered node of the `_id`. -/
def FromDoc (docs : AList Id Val) (c : Stmt) (i : Id) (d : Kw) : Prop :=
  (c.own = none ∨ c.own = some []) ∧ c.id = some i ∧ i ≠ [] ∧ AList.get? docs i = some (.dict d)

/-- The identifiers in a list of texts. -/
def texts : List Val → List Str
  | [] => []
  | .str i :: l => i :: texts l
  | _ :: l => texts l

/-- What a schema says it extends. -/
def names (d : Kw) : List Str :=
  match AList.get? d "extends".toList with
  | some (.list l) => texts l
  | _ => []

/-- The identifiers of the classes a class statement derives from. -/
def parents : List (Option Str) → List Str
  | [] => []
  | some i :: l => i :: parents l
  | none :: l => parents l

/-- The identifier of the class: the one given, or else its name. -/
def Under (c : Stmt) (i : Id) : Prop :=
  (c.id = some i ∧ i ≠ []) ∨ ((c.id = none ∨ c.id = some []) ∧ i = c.name)

/-- Reading the keywords: a mapping is no constant, and its type is seen. -/
def Reads (read : Kw → Schema) : Prop :=
  ∀ d, "type".toList ∈ AList.keys d → (read d).isBool = false ∧ (read d).typed = true

end Verif.Defining
