import Verif.Num
import Verif.Model.Decor
/-
Model of /repo/ngoschema/resolvers/uri_resolver.py: `scope`, `resolve_fragment`, the document store with
`resolve_doc`, and `resolve_uri`.

Simplifications: `urllib.parse.unquote` is a parameter (`unq`), of which theorems only assume that it
leaves text without `%` alone; the normalisation of `UriDict` keys is a parameter (`norm`);
`urldefrag` is the cut at the first `#`; remote loading (`remote=True`) is not modelled; a document
is never `None`.
-/
namespace Verif.Uri
open Decor (Lru)

/-- uri_resolver.py 208-209 `scope(uri, base_id)`. -/
def scope (uri base : Str) : Str :=
  match splitOn '#' uri with
  | doc :: frag :: _ =>
    (if doc.isEmpty then (splitOn '#' base).head?.getD [] else doc) ++ ['#'] ++ frag
  | _ => uri

/-- `s.replace(xy, z)` for a text `xy` of two characters. -/
def replace2 (x y z : Char) : Str → Str
  | [] => []
  | [a] => [a]
  | a :: b :: s => if a = x ∧ b = y then z :: replace2 x y z s else a :: replace2 x y z (b :: s)

/-- uri_resolver.py 63. -/
def unescape (part : Str) : Str := replace2 '~' '0' '~' (replace2 '~' '1' '/' part)

/-- uri_resolver.py 62-68, one step; every exception becomes InvalidValue. `is_sequence` is true for
lists only; indexing a scalar or a string by a string is a TypeError. -/
def fragStep (doc : Val) (part : Str) : Res Val :=
  match doc with
  | .list l => match parseInt (unescape part) with
    | none => .error .invalidValue
    | some i => match pyIndex l i with
      | none => .error .invalidValue
      | some v => .ok v
  | .dict d => match AList.get? d (unescape part) with
    | none => .error .invalidValue
    | some v => .ok v
  | _ => .error .invalidValue

/-- uri_resolver.py 61-69, the loop. -/
def fragLoop : Val → List Str → Res Val
  | doc, [] => .ok doc
  | doc, part :: parts => match fragStep doc part with
    | .error e => .error e
    | .ok v => fragLoop v parts

/-- uri_resolver.py 58-69 `resolve_fragment(doc, fragment)`. -/
def resolveFragment (unq : Str → Str) (doc : Val) (fragment : Str) : Res Val :=
  let fragment := lstrip (· == '/') fragment
  fragLoop doc (if fragment.isEmpty then [] else splitOn '/' (unq fragment))

/-- `urldefrag(uri)`: the text before and after the first `#`. -/
def urldefrag (uri : Str) : Str × Str := (uri.takeWhile (· ≠ '#'), (uri.dropWhile (· ≠ '#')).drop 1)

/-- The document store (a `UriDict`, line 93) and the cache of `resolve_doc` (line 43). -/
structure Store (δ : Type) where
  docs : AList Str δ
  cache : Lru Str δ
  deriving DecidableEq, Repr

/-- Nothing registered, nothing resolved. -/
def Store.empty (δ : Type) : Store δ := ⟨[], ⟨some 128, []⟩⟩

/-- uri_resolver.py 43-55 `resolve_doc(uri_id)`, without remote loading. -/
def resolveDoc {δ : Type} (norm : Str → Str) (s : Store δ) (uri : Str) : Res δ × Store δ :=
  match s.cache.call (fun u => match AList.get? s.docs (norm (urldefrag u).1) with
      | some d => .ok d
      | none => .error .exception) uri with
  | (r, _, c) => (r, { s with cache := c })

/-- uri_resolver.py 106-108 `register_doc(doc, uri_id)`. -/
def registerDoc {δ : Type} (norm : Str → Str) (s : Store δ) (uri : Str) (d : δ) : Store δ :=
  { s with docs := AList.set s.docs (norm uri) d }

/-- uri_resolver.py 99-104 `unregister_doc(uri_id)`. -/
def unregisterDoc {δ : Type} (norm : Str → Str) (s : Store δ) (uri : Str) : Store δ :=
  { s with docs := AList.erase s.docs (norm uri) }

/-- uri_resolver.py 72-79 `resolve_uri(uri_id)`. -/
def resolveUri (norm unq : Str → Str) (s : Store Val) (uri : Str) : Res Val × Store Val :=
  match resolveDoc norm s (urldefrag uri).1 with
  | (.error e, s) => (.error e, s)
  | (.ok doc, s) => (resolveFragment unq doc (urldefrag uri).2, s)

/-- Operations on the document store. -/
inductive DocOp (δ : Type) where
  | register (uri : Str) (doc : δ)
  | unregister (uri : Str)
  | resolve (uri : Str)

/-- One operation. -/
def Store.step {δ : Type} (norm : Str → Str) (s : Store δ) : DocOp δ → Store δ
  | .register u d => registerDoc norm s u d
  | .unregister u => unregisterDoc norm s u
  | .resolve u => (resolveDoc norm s u).2

/-- A history. -/
def Store.run {δ : Type} (norm : Str → Str) (s : Store δ) (ops : List (DocOp δ)) : Store δ :=
  ops.foldl (Store.step norm) s

end Verif.Uri
