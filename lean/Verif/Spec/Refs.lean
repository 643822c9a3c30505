import Verif.Model.Refs
/-
What is expected of commands, relative URLs and registered documents.
-/
namespace Verif.Refs

/-- The file of the command `n`. -/
def fileOf (n : Str) : Str := "cmd_".toList ++ n ++ ".py".toList

/-- The name of a command as people write it: lower case, without dots, underscores between words. -/
def Lower (n : Str) : Prop := ∀ c ∈ n, c ≠ '-' ∧ c ≠ '.' ∧ c.toLower = c

/-- A segment of a path that names something. -/
def Proper (s : Str) : Prop := s ≠ [] ∧ s ≠ ['.'] ∧ s ≠ ['.', '.']

/-- RFC 3986, 5.2.4: dot segments are removed; `acc` are the segments so far. After a last dot segment the path ends in a
slash. -/
def removeDots (acc : List Str) : List Str → List Str
  | [] => acc
  | [s] => if s = ['.'] then acc ++ [[]] else if s = ['.', '.'] then acc.dropLast ++ [[]] else acc ++ [s]
  | s :: l =>
    if s = ['.'] then removeDots acc l else if s = ['.', '.'] then removeDots acc.dropLast l else removeDots (acc ++ [s]) l

/-- RFC 3986, 5.2: the path a relative path leads to from a base path. -/
def follow (base rel : List Str) : List Str := removeDots [] (base.dropLast ++ rel)

end Verif.Refs
