import Verif.Model.Uri
/-
Specification for C35-C37, C95.
-/
namespace Verif.Uri

/-- RFC 6901: the node of a document that a list of tokens addresses. -/
inductive Addresses : Val → List Str → Val → Prop
  | here (v : Val) : Addresses v [] v
  | key {d k v ks w} (h : AList.get? d k = some v) (hw : Addresses v ks w) : Addresses (.dict d) (k :: ks) w
  | pos {l : List Val} {i : Nat} {v ks w} (h : l[i]? = some v) (hw : Addresses v ks w) :
      Addresses (.list l) (showNat i :: ks) w

/-- RFC 6901 escaping of a token: `~` as `~0`, `/` as `~1`. -/
def escape (tok : Str) : Str :=
  tok.flatMap (fun c => if c = '~' then ['~', '0'] else if c = '/' then ['~', '1'] else [c])

/-- The pointer: every escaped token after a slash. -/
def pointer (toks : List Str) : Str := toks.flatMap (fun t => '/' :: escape t)

/-- The document a history leaves registered under a URI: the last registration under an equivalent
URI, unless it was unregistered since. -/
def registered {δ : Type} (norm : Str → Str) (uri : Str) : List (DocOp δ) → Option δ → Option δ
  | [], cur => cur
  | .register u d :: ops, cur => registered norm uri ops (if norm u = norm uri then some d else cur)
  | .unregister u :: ops, cur => registered norm uri ops (if norm u = norm uri then none else cur)
  | .resolve _ :: ops, cur => registered norm uri ops cur

/-- An operation does not change what is registered under a URI. -/
def Keeps {δ : Type} (norm : Str → Str) (uri : Str) : DocOp δ → Prop
  | .register u _ => norm u ≠ norm uri
  | .unregister u => norm u ≠ norm uri
  | .resolve _ => True

end Verif.Uri
