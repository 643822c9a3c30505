import Verif.Model.Builder
/-
Where a schema stands in another one (JSON Schema), and the pointer that leads to it (RFC 6901).
-/
namespace Verif.Pointers
open Builder (Schema)

/-- The schema found in a schema under these keys. -/
inductive Under : Schema → List Str → Schema → Prop where
  | prop {ty ref ext defs props patterns add items l f rels o k s} (h : (k, s) ∈ props) :
    Under (.node ty ref ext defs props patterns add items l f rels o) ["properties".toList, k] s
  | pattern {ty ref ext defs props patterns add items l f rels o k s} (h : (k, s) ∈ patterns) :
    Under (.node ty ref ext defs props patterns add items l f rels o) ["patternProperties".toList, k] s
  | additional {ty ref ext defs props patterns items l f rels o s} :
    Under (.node ty ref ext defs props patterns (some s) items l f rels o) ["additionalProperties".toList] s
  | items {ty ref ext defs props patterns add f rels o s} :
    Under (.node ty ref ext defs props patterns add (some s) [] f rels o) ["items".toList] s
  | item {ty ref ext defs props patterns add items l f rels o s} (k : Nat) (h : l[k]? = some s) :
    Under (.node ty ref ext defs props patterns add items l f rels o) ["items".toList, showNat k] s

/-- `~` and `/` in a key are written `~0` and `~1`. -/
def escape (k : Str) : Str := k.flatMap fun c => if c = '~' then ['~', '0'] else if c = '/' then ['~', '1'] else [c]

/-- The pointer from the schema at `i`. -/
def pointer (i : Str) (path : List Str) : Str := i ++ path.flatMap fun k => '/' :: escape k

/-- Nothing to be escaped. -/
def Simple (k : Str) : Prop := '~' ∉ k ∧ '/' ∉ k

def typeOf : Schema → Str
  | .bool _ => []
  | .node ty _ _ _ _ _ _ _ _ _ _ _ => ty.getD []

end Verif.Pointers
