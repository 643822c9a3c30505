import Verif.Num
/-
What texts are expected to be. Nothing here refers to the model.
-/
namespace Verif.Spec.Show

/-- A text of at most forty characters as it is, a longer one cut there and marked. -/
def cut (t : Str) : Str := if t.length ≤ 40 then t else t.take 40 ++ "...".toList

/-- What is said of the values beyond the tenth. -/
def more (n : Nat) : List Str := if n ≤ 10 then [] else ["+".toList ++ showNat (n - 10) ++ "...".toList]

/-- What items stand for: the converted value where there is one, the value given otherwise. -/
def content : List Val → List Val → List Val
  | v :: vs, d :: ds => (if v = .none then d else v) :: content vs ds
  | _, _ => []

/-- What a property stands for. -/
def present (validated data : AList Str Val) (k : Str) : Val :=
  if (validated.get? k).getD .none = .none then (data.get? k).getD .none else (validated.get? k).getD .none

/-- The text of an array with these values. -/
def arrayText (rep : Val → Str) (vals : List Val) : Str :=
  "[".toList ++ joinWith ", ".toList ((vals.take 10).map (fun v => cut (rep v)) ++ more vals.length) ++ "]".toList

/-- The text of an object with these properties, in this order. -/
def objectText (rep : Val → Str) (props : List (Str × Val)) : Str :=
  "{".toList ++ joinWith ", ".toList
    ((props.take 10).map (fun p => p.1 ++ ": ".toList ++ cut (rep p.2)) ++ more props.length) ++ "}".toList

/-- A decorator is transparent on a call when it gives the result and leaves the state the function does. -/
def Transparent {σ α ω : Type} (f : σ → Res α × σ) (g : σ → Res α × σ × ω) (s : σ) : Prop :=
  (g s).1 = (f s).1 ∧ (g s).2.1 = (f s).2

end Verif.Spec.Show
