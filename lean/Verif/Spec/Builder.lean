import Verif.Model.Builder
/-
Vocabulary of C76 and C77: histories of requests, and the two ways an identifier can be out of the builder's usual
course (another identifier registered over it; left under construction by a failure).
-/
namespace Verif.Builder

/-- Outcome of a request: what it gives at some depth of calls. -/
def Gives (cfg : Cfg) (r : Req) (s : St) (out : Res Cls) (s' : St) : Prop := ∃ n, run cfg n r s = some (out, s')

/-- A history of requests; the documents known may change in between. Outcomes in order. -/
inductive Hist : St → List (Cfg × Req × Res Cls) → St → Prop
  | nil (s : St) : Hist s [] s
  | cons {cfg : Cfg} {r : Req} {s s1 s2 : St} {out : Res Cls} {h : List (Cfg × Req × Res Cls)} :
      Gives cfg r s out s1 → Hist s1 h s2 → Hist s ((cfg, r, out) :: h) s2

/-- The identifier a request asks for. -/
def Req.id : Req → Id
  | .load i => i
  | .build i _ => i

/-- Some class made for another identifier was registered under `i`, among the events `l`. -/
def Clash (i : Id) (l : List Event) : Prop := ∃ a, a ≠ i ∧ underscore a = i ∧ Event.extended a ∈ l

/-- The schema is one of the constants. -/
def Schema.isBool : Schema → Bool
  | .bool _ => true
  | _ => false

/-- The schema has a type. -/
def Schema.typed : Schema → Bool
  | .node (some _) _ _ _ _ _ _ _ _ _ _ _ => true
  | _ => false

def Cls.isProxyOf (i : Id) : Cls → Prop
  | .proxy j _ => j = i
  | _ => False

/-- A builder that has just been created, or that holds built-in classes only: nothing under construction. -/
def Idle (s : St) : Prop := s.onC = []

end Verif.Builder
