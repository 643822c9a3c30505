import Verif.Model.Names
import Verif.Model.Uri
/-
Model of identifiers: /repo/ngoschema/types/uri.py 66-115 (`Id`, `Canonical`), over the namespace manager of Model/Names
and `scope` of Model/Uri.

Simplifications. `dig` are the characters of `\d`. `check` is for texts that are neither expressions nor templates; the
URL written by `Uri.serialize` holds a `#` exactly if something follows the first one (urllib drops an empty fragment);
tabs and line breaks, which urllib removes, are not considered. The manager is the one of the context.
-/
namespace Verif.Ids
open Names (Mgr Env)

/-- `[\.\da-zA-Z_]`. -/
def cnChar (dig : Char → Bool) (c : Char) : Bool :=
  c == '.' || dig c || ('a' ≤ c && c ≤ 'z') || ('A' ≤ c && c ≤ 'Z') || c == '_'

/-- uri.py 67 `cn_re.search`; `$` also matches before a final line break. -/
def cnRe (dig : Char → Bool) (s : Str) : Bool :=
  let t := if s.getLast? = some '\n' then s.dropLast else s
  !t.isEmpty && t.all (cnChar dig)

/-- uri.py 95-97. -/
def absolute (m : Mgr) (uri : Str) : Str :=
  Uri.scope (if '#' ∈ uri then uri else uri ++ ['#']) m.curUri

/-- uri.py 88-98 `Id._convert`. -/
def convert (env : Env) (dig : Char → Bool) (m : Mgr) (v : Val) : Res Val × Mgr :=
  if v.truthy then
    match v with
    | .str s =>
      if cnRe dig s then match m.getCnameId env s with
        | (.error e, m') => (.error e, m')
        | (.ok id, m') => (.ok (.str (absolute m' id)), m')
      else (.ok (.str (absolute m s)), m)
    | _ => (.error .typeError, m)
  else (.ok v, m)

/-- uri.py 100-110 `Id._serialize` with `canonical`. The registry always holds a namespace, whose URI is compared with the
value. -/
def serializeCanonical (env : Env) (m : Mgr) (v : Val) : Res Val × Mgr :=
  match v with
  | .str s => match m.getIdCname env s false with
    | (.error e, m') => (.error e, m')
    | (.ok none, m') => (.ok .none, m')
    | (.ok (some c), m') => (.ok (.str c), m')
  | .list _ => (.error .typeError, m)
  | .dict _ => (.error .typeError, m)
  | _ => (.error .attributeError, m)

/-- uri.py 106-110 `Id._serialize` without `canonical`. -/
def serialize (m : Mgr) (v : Val) : Res Val :=
  match v with
  | .str s =>
    if (Names.beforeHash m.curUri ++ ['#']).isPrefixOf s then .ok (.str (s.drop (Names.beforeHash m.curUri).length))
    else .ok (.str s)
  | _ => .error .attributeError

/-- uri.py 78-86 `Id._check`, as the answer of `check`. -/
def check (env : Env) (dig : Char → Bool) (m : Mgr) (v : Val) : Bool × Mgr :=
  match v with
  | .str s =>
    if (Uri.urldefrag s).2 ≠ [] then (true, m)
    else if cnRe dig s then match m.getCnameId env s with
      | (.error _, m') => (false, m')
      | (.ok _, m') => (true, m')
    else (false, m)
  | _ => (false, m)

end Verif.Ids
