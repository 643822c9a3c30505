import Verif.Model.Making
/-
What C214-C218 say about schemas and histories, without the functions of the model.
-/
namespace Verif.Making.Spec

/-- The first schema given for a property at an address. -/
def firstGiven {σ : Type} (a : Nat) (n : Str) : List (Nat × List (Str × σ)) → Option σ
  | [] => none
  | (b, ps) :: h => if b = a then match AList.get? ps n with
      | some s => some s
      | none => firstGiven a n h
    else firstGiven a n h

/-- A type occurs somewhere. -/
inductive HasType : Sch → Prop
  | type (i : Option Str) (r : Val) : HasType (.type i r)
  | list (l : List Sch) (s : Sch) (h : s ∈ l) (hs : HasType s) : HasType (.list l)
  | dict (d : List (Str × Sch)) (k : Str) (s : Sch) (h : (k, s) ∈ d) (hs : HasType s) : HasType (.dict d)

/-- A type occurs below a list. -/
inductive InList : Sch → Prop
  | list (l : List Sch) (s : Sch) (h : s ∈ l) (hs : HasType s) : InList (.list l)
  | dict (d : List (Str × Sch)) (k : Str) (s : Sch) (h : (k, s) ∈ d) (hs : InList s) : InList (.dict d)

end Verif.Making.Spec
