import Verif.Model.Array
/-
What is expected of an array: it is a Python list of raw items (assignment, deletion, insertion with the usual
meaning of negative item numbers), and reading an item gives the conversion of the raw item at that place.
-/
namespace Verif.Arr.Spec

/-- The raw item number `i` of a list of `n`, counted from the start; it may lie outside. -/
def place (n : Nat) (i : Int) : Int := if i < 0 then i + n else i

def inside (n : Nat) (i : Int) : Prop := 0 ≤ place n i ∧ place n i < n

instance (n i) : Decidable (inside n i) := inferInstanceAs (Decidable (_ ∧ _))

/-- What one operation does to the list of raw items. -/
def step (raw : List Val) : Op → List Val
  | .get _ => raw
  | .set i v => if inside raw.length i then raw.set (place raw.length i).toNat v else raw
  | .del i => if inside raw.length i then raw.eraseIdx (place raw.length i).toNat else raw
  | .ins i v =>
    let k := (max 0 (min (place raw.length i) raw.length)).toNat
    raw.take k ++ v :: raw.drop k
  | .app v => raw ++ [v]

def run (raw : List Val) : List Op → List Val
  | [] => raw
  | op :: ops => run (step raw op) ops

/-- What reading item `i` is expected to give. -/
def read (c : Val → Res Val) (raw : List Val) (i : Int) : Res Val :=
  if inside raw.length i then
    match raw[(place raw.length i).toNat]? with
    | some r => c r
    | none => .error .indexError
  else .error .indexError

/-- All items have the same type. -/
def Uniform (cfg : Cfg) (c : Val → Res Val) : Prop := ∀ i v, cfg.conv i v = c v

/-- A converted value is its own conversion. -/
def Idempotent (c : Val → Res Val) : Prop := ∀ x y, c x = .ok y → c y = .ok y

/-- The assignments of the history assign values of the item type. -/
def GoodSets (c : Val → Res Val) (ops : List Op) : Prop := ∀ i v, Op.set i v ∈ ops → ∃ w, c v = .ok w

/-- The three lists have the same length. -/
def Aligned (s : Arr) : Prop := s.validated.length = s.data.length ∧ s.inputs.length = s.data.length

instance (s) : Decidable (Aligned s) := inferInstanceAs (Decidable (_ ∧ _))

end Verif.Arr.Spec
