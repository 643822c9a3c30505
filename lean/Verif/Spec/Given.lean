import Verif.Model.Given
/-
What calls with data and keywords ought to do (C340, C341).
-/
namespace Verif.Given

/-- The names that are no data when given by keyword. -/
def reserved : List Str :=
  ["value".toList, "lazyLoading".toList, "items".toList, "validate".toList, "context".toList, "session".toList]

/-- The keyword arguments that are data. -/
def dataOf (kw : Kw) : Kw := kw.filter fun p => p.1 ∉ reserved

end Verif.Given
