import Verif.Model.Registry
/-
Specification for C06-C08.
-/
namespace Verif.Registry
variable {κ ν υ : Type}

/-- The mutation concerns the entry of normal form `n`. -/
def KMOp.touches (f : κ → ν) (n : ν) : KMOp κ υ → Prop
  | .set k _ => f k = n
  | .del k => f k = n

/-- `Anc F i j`: `j` is `i` itself or reachable from `i` through parent links. -/
inductive Anc (F : Forest) : Nat → Nat → Prop
  | refl (i) : Anc F i i
  | step {i p j} (hp : p ∈ F.parents i) (h : Anc F p j) : Anc F i j

/-- A `register` call of a history: on which registry, which key, which value. -/
structure Reg (κ υ : Type) where
  on : Nat
  key : κ
  val : υ

/-- The call concerns key `k` of registry `j`: same key, made on `j` or a descendant of `j`. -/
def Reg.reaches (F : Forest) (j : Nat) (k : κ) (r : Reg κ υ) : Prop := r.key = k ∧ Anc F r.on j

/-- No diamonds above `i`: any two distinct parents met on the way up have no common ancestor. -/
def NoDiamond (F : Forest) (i : Nat) : Prop :=
  ∀ a, Anc F i a → (F.parents a).Nodup ∧
    ∀ p ∈ F.parents a, ∀ q ∈ F.parents a, p ≠ q → ∀ j, ¬ (Anc F p j ∧ Anc F q j)

end Verif.Registry
