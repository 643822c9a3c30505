import Verif.Model.Proxy
/-
What is asked of a class that stands for one under construction.
-/
namespace Verif.Proxy.Spec

/-- The classes asked about since the last registration. -/
def asked : List Op → List Nat
  | [] => []
  | .issubclass c :: ops => if Op.register ∈ ops then asked ops else c :: asked ops
  | .isinstance c :: ops => if Op.register ∈ ops then asked ops else c :: asked ops
  | _ :: ops => asked ops

/-- No construction ends. -/
def NoBuild (ops : List Op) : Prop := ∀ k, Op.build k ∉ ops

end Verif.Proxy.Spec
