import Verif.Model.Keys
/-
What foreign keys are expected to be, written without the functions of the model.
-/
namespace Verif.Keys.Spec

/-- The object has these values for these attributes. -/
inductive Has (e : Entity) : List Str → List Val → Prop
  | nil : Has e [] []
  | cons {n v ns vs} : e.attr n = .ok v → Has e ns vs → Has e (n :: ns) (v :: vs)

/-- Each component is converted by its type. -/
inductive Conv : List (Val → Res Val) → List Val → List Val → Prop
  | nil : Conv [] [] []
  | cons {t v w ts vs ws} : t v = .ok w → Conv ts vs ws → Conv (t :: ts) (v :: vs) (w :: ws)

/-- The value of a key with these components: the component if there is one only, else the tuple. -/
inductive Key : List Val → Val → Prop
  | one (w) : Key [w] w
  | many (ws) : ws.length ≠ 1 → Key ws (.list ws)

/-- A text that is neither an expression nor a template, or no text. -/
def Literal : Val → Prop
  | .str s => s.head? ≠ some '`' ∧ ¬ ['{', '{'] <:+: s ∧ ¬ ['{', '%'] <:+: s
  | _ => True

/-- The first repository of the class that has the key holds the object under it. -/
def FirstHolds (repos : List Repo) (ks : List Val) (o : Nat) : Prop :=
  ∃ pre r post, repos = pre ++ r :: post ∧ r.sub = true ∧ AList.get? r.catalog ks = some o ∧
    ∀ p ∈ pre, p.sub = true → AList.get? p.catalog ks = none

/-- No repository of the class has the key. -/
def Absent (repos : List Repo) (ks : List Val) : Prop :=
  ∀ r ∈ repos, r.sub = true → AList.get? r.catalog ks = none

/-- A single component that survives being written and read as the key: None, a number that is not negative, or a text
without commas, without spaces around it, that is not empty, not an expression and not a template. -/
def Plain : Val → Prop
  | .none => True
  | .int i => 0 ≤ i
  | .str s => s ≠ [] ∧ ',' ∉ s ∧ (∀ c, s.head? = some c → isSpace c = false) ∧
      (∀ c, s.getLast? = some c → isSpace c = false) ∧ Literal (.str s)
  | _ => False

end Verif.Keys.Spec
