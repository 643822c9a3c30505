import Verif.Model.Ids
import Verif.Spec.Names
import Verif.Model.FilePaths
/-
What the properties C181-C190 say, without the functions of the models.
-/
namespace Verif.Ids.Spec

/-- `id` is the fragment `frag` of the document `doc`. -/
def Is (doc frag id : Str) : Prop := id = doc ++ '#' :: frag ∧ '#' ∉ doc ∧ '#' ∉ frag

/-- The text before the first `#`. -/
def document (uri : Str) : Str := uri.takeWhile (· ≠ '#')

/-- The digits that a name may hold: at least the ASCII ones, none of the characters that separate the parts of URIs. -/
def Digits (dig : Char → Bool) : Prop :=
  (∀ c, '0' ≤ c → c ≤ '9' → dig c = true) ∧ dig '#' = false

end Verif.Ids.Spec

namespace Verif.FilePaths.Spec

/-- A path as `pathlib` holds it. -/
def Normal (p : PPath) : Prop := p.root ≤ 2 ∧ ∀ x ∈ p.parts, x ≠ [] ∧ x ≠ ['.'] ∧ '/' ∉ x

end Verif.FilePaths.Spec
