import Verif.Model.Xml
import Verif.Model.Strings
/-
XML names with namespaces, declarations of namespaces, comments, and the options of a call:
/repo/ngoschema/utils/xmltodict.py 68-97, 162-165, 314-330, 354-366, 387, 419-431 and
/repo/ngoschema/serializers/xml_serializer.py 38-51.

Simplifications:
* The separator and the prefix of attributes are not empty. A short name that is None is the empty string here.
* A document is the events expat gives, as in `Verif.Xml`; a comment is one more event, before which pending text is
  delivered, as before a tag. Namespaces and comments are looked at separately.
* With namespaces (`process_namespaces`) expat gives the declarations of an element just before the element, and leaves
  them out of its attributes.
-/
namespace Verif.XmlNs
open Xml

/-! ### Names -/

/-- xmltodict.py 68-82 `_build_name`; `ns`: `self.namespaces`. -/
def buildName (ns : Option (AList Str Str)) (sep full : Str) : Str :=
  match ns with
  | none => full
  | some ns => match Strings.cutLast sep full with
    | none => full
    | some (space, _) =>
      let name := full.drop (space.length + 1)
      let short := (ns.get? space).getD space
      if short.isEmpty then name else short ++ sep ++ name

/-- xmltodict.py 354-366 `_process_namespace`. -/
def processNamespace (ns : AList Str Str) (sep pre name : Str) : Str :=
  if ns.isEmpty then name
  else match Strings.cutLast sep name with
    | none => name
    | some (space, name) =>
      let res := (ns.get? (strip (fun c => decide (c ∈ pre)) space)).getD []
      if res.isEmpty then name
      else (if pre.isPrefixOf space then pre else []) ++ res ++ sep ++ name

/-- The name an element is written with (xmltodict.py 387). -/
def elementName (ns : AList Str Str) (sep pre key : Str) : Str := processNamespace ns sep pre key

/-- The name an attribute is written with; `key` begins with the prefix (xmltodict.py 419-431). -/
def attributeName (ns : AList Str Str) (sep pre key : Str) : Str := (processNamespace ns sep pre key).drop pre.length

/-! ### Declarations -/

/-- xmltodict.py 89-90 `startNamespaceDecl` for each declaration of an element. -/
def declare (pending : AList Str Str) (decls : List (Str × Str)) : AList Str Str :=
  decls.foldl (fun d p => d.set p.1 p.2) pending

/-- xmltodict.py 94-97: the declarations an element gets, and those that are left pending. -/
def take (pending : AList Str Str) (attrs : AList Str Str) : Option (AList Str Str) × AList Str Str :=
  if !attrs.isEmpty && !pending.isEmpty then (some pending, []) else (none, pending)

/-- The elements of a document in the order they begin: what each is given as `@xmlns`. -/
def xmlns : AList Str Str → List (List (Str × Str) × AList Str Str) → List (Option (AList Str Str))
  | _, [] => []
  | pending, (decls, attrs) :: els =>
    let r := take (declare pending decls) attrs
    r.1 :: xmlns r.2 els

/-! ### Comments -/

def kComment : Str := "#comment".toList

inductive Ev where
  | ev (e : Event)
  | comment (s : Str)
  deriving DecidableEq, Repr

/-- xmltodict.py 162-165 `comments`. -/
def comments (fl : Str → Bool) (h : H) (s : Str) : H :=
  { h with item := some (pushData fl h.item kComment (.str (strip isSpace s))) }

/-- The handler on one event; `cs`: `process_comments` (without it a comment is no event, and the text around it is
one). -/
def feedC (fl : Str → Bool) (cs : Bool) (s : Str × H) : Ev → Str × H
  | .ev e => feed fl s e
  | .comment t => if cs then ([], comments fl (flush s.1 s.2) t) else s

/-- xmltodict.py 199-334 `parse`, with `process_comments`. -/
def parse (fl : Str → Bool) (cs : Bool) (evs : List Ev) : Option Dict :=
  (evs.foldl (feedC fl cs) ([], ⟨none, [], []⟩)).2.item

/-! ### Options -/

/-- What a call of the deserialiser hands to `parse`. -/
structure Opts where
  namespaces : Val
  separator : Val
  entities : Val
  comments : Val
  forceList : Val
  deriving DecidableEq, Repr

/-- `opts.get(name, default)`. -/
def opt (opts : AList Str Val) (name : String) (d : Val) : Val := (opts.get? name.toList).getD d

/-- xml_serializer.py 40-44; `self`: what the deserialiser was made with. -/
def options (self : Opts) (opts : AList Str Val) : Opts where
  namespaces := opt opts "attr_prefix" self.namespaces
  separator := opt opts "namespace_separator" self.separator
  entities := opt opts "disable_entities" self.entities
  comments := opt opts "attr_prefix" self.comments
  forceList := opt opts "force_list" self.forceList

end Verif.XmlNs
