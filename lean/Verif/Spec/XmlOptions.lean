import Verif.Spec.XmlNs
import Verif.Model.XmlOptions
/-
Documents changed by names, documents without attributes, documents with their texts apart.
-/
namespace Verif.XmlOptions.Spec
open XmlNs

mutual
/-- A document with its elements and attributes renamed (`elem`, `att`), or left out where there is no new name; and with
its comments or not. -/
def translate (elem att : Str → Option Str) (cs : Bool) : List Node → List Node
  | [] => []
  | n :: ns => translated elem att cs n ++ translate elem att cs ns
def translated (elem att : Str → Option Str) (cs : Bool) : Node → List Node
  | .text s => [.text s]
  | .comment s => if cs then [.comment s] else []
  | .elem name attrs content => match elem name with
    | none => []
    | some name' => [.elem name' (attrs.filterMap fun a => (att a.1).map fun k => (k, a.2)) (translate elem att cs content)]
end

/-- Without attributes. -/
def bare : List Node → List Node := translate some (fun _ => none) true

/-- `force_list` is no function. -/
def NotCall : Force → Prop
  | .call _ => False
  | _ => True

/-- `s` is a part of `t`. -/
def Part (s t : Str) : Prop := ∃ a b, t = a ++ s ++ b

/-- The name is one that `force_list` asks lists for. -/
def Listed : Force → Str → Prop
  | .never, _ => False
  | .always, _ => True
  | .names ks, k => k ∈ ks
  | .text s, k => s ≠ [] ∧ Part k s
  | .call _, _ => False

/-- Elements of the name. -/
def isElem (key : Str) : Node → Bool
  | .elem name _ _ => name = key
  | _ => false

mutual
/-- No two texts follow each other; the names of elements are not among `keys`, and do not begin like attributes. -/
def Plain (keys : List Str) (pre : Str) : List Node → Prop
  | [] => True
  | n :: ns => PlainN keys pre n ∧ (∀ s t ns', n = .text s → ns ≠ .text t :: ns') ∧ Plain keys pre ns
def PlainN (keys : List Str) (pre : Str) : Node → Prop
  | .elem name _ content => name ∉ keys ∧ pre.isPrefixOf name = false ∧ Plain keys pre content
  | _ => True
end

mutual
/-- A document in which every text that is the whole value of an element stands under `text`; what stands under `keys`,
and attributes, are left as they are. -/
def apart (text : Str) (keys : List Str) (pre : Str) : Val → Val
  | .str (c :: s) => .dict [(text, .str (c :: s))]
  | .dict d => .dict (apartD text keys pre d)
  | .list l => .list (apartL text keys pre l)
  | v => v
def apartD (text : Str) (keys : List Str) (pre : Str) : List (Str × Val) → List (Str × Val)
  | [] => []
  | (k, v) :: d => (k, if k ∈ keys ∨ pre.isPrefixOf k = true then v else apart text keys pre v) :: apartD text keys pre d
def apartL (text : Str) (keys : List Str) (pre : Str) : List Val → List Val
  | [] => []
  | v :: l => apart text keys pre v :: apartL text keys pre l
end

end Verif.XmlOptions.Spec
