import Verif.Model.Repo
/-
Specification for C72, C73, C111-C113: a log of the commits that succeeded.
-/
namespace Verif.Repo

/-- A history of commits; failing ones are skipped. With each that succeeds the log keeps the identity and the
object, last first. -/
def history (conv : Nat → Key → Key) (w : World) (log : List (List Key × Ref)) : List Ref → World × List (List Key × Ref)
  | [] => (w, log)
  | o :: os =>
    match commit conv w o with
    | (w', .ok ()) => history conv w' ((w'.keys o, o) :: log) os
    | (w', .error _) => history conv w' log os

/-- The object last committed under an identity. -/
def lastFor (ks : List Key) : List (List Key × Ref) → Option Ref
  | [] => none
  | (ks', o) :: log => if ks' = ks then some o else lastFor ks log

end Verif.Repo
