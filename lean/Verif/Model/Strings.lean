import Verif.Val
/-
Model of the string helpers of /repo/ngoschema/utils/str_utils.py. Strings are lists of code points.
-/
namespace Verif.Strings

/-- str_utils.py 198-202 `shorten(s, max_size)`, for a string and `max_size >= 0`. -/
def shorten (s : Str) (maxSize : Nat) : Str :=
  if s.length > maxSize then s.take maxSize ++ ['.', '.', '.'] else s

/-- str_utils.py 205-206 `inline(s)`: `'\\n'.join(s.split('\n'))`. -/
def inline (s : Str) : Str := joinWith ['\\', 'n'] (splitOn '\n' s)

/-- The cut `str.rsplit` makes first: the last position where `old` occurs, as the text before and
after; `none` when it does not occur. -/
def cutLast (old : Str) : Str → Option (Str × Str)
  | [] => if old.isPrefixOf [] then some ([], []) else none
  | c :: cs =>
    match cutLast old cs with
    | some (a, b) => some (c :: a, b)
    | none => if old.isPrefixOf (c :: cs) then some ([], (c :: cs).drop old.length) else none

/-- `s.rsplit(old, n)` for a non-empty `old` and `n >= 0`. -/
def rsplit (old : Str) : Nat → Str → List Str
  | 0, s => [s]
  | n + 1, s =>
    match cutLast old s with
    | none => [s]
    | some (a, b) => rsplit old n a ++ [b]

/-- str_utils.py 188-191 `rreplace(s, old, new, occurrence)`; an empty separator is refused by
`str.rsplit` with ValueError. -/
def rreplace (s old new : Str) (occurrence : Nat) : Res Str :=
  if old.isEmpty then .error .valueError else .ok (joinWith new (rsplit old occurrence s))

/-- `re.split(regex, string)` for the regular expression `d1|d2|...` of one-character alternatives that
lines 175-177 build (special characters are escaped, so each alternative is its own character). -/
def splitAny (delimiters : Str) : Str → List Str
  | [] => [[]]
  | c :: cs =>
    if c ∈ delimiters then [] :: splitAny delimiters cs
    else match splitAny delimiters cs with
      | [] => [[c]]
      | w :: ws => (c :: w) :: ws

/-- str_utils.py 164-179 `split_string(string, delimiters, strip)` on one string; `isSpace` is the set
of characters `str.strip()` removes. The lifting to arrays is modelled in `Verif.Decor`. -/
def splitString (isSpace : Char → Bool) (string delimiters : Str) (strip_ : Bool) : List Str :=
  if delimiters.isEmpty then [string]
  else (splitAny delimiters string).map (fun w => if strip_ then strip isSpace w else w)

/-- The first key of the table, in table order, that the text starts with: what the alternation of
str_utils.py 148-149 matches at a position. -/
def firstKey (table : AList Str Str) (s : Str) : Option (Str × Str) :=
  table.find? (fun kv => kv.1.isPrefixOf s)

/-- `pattern.sub(replacement_function, string)` of str_utils.py 150, for non-empty keys: leftmost match,
replaced, scanning goes on after it. (An empty key would match nowhere visibly; it is not modelled and
every theorem assumes keys are not empty.) -/
def subLoop (table : AList Str Str) : Str → Str
  | [] => []
  | c :: cs =>
    match firstKey table (c :: cs) with
    | some (k, v) => v ++ subLoop table (cs.drop (k.length - 1))
    | none => c :: subLoop table cs
termination_by s => s.length
decreasing_by
  · simp [List.length_drop]; omega
  · simp

/-- str_utils.py 146-161 `multiple_replace(string, key_values)`. The empty table compiles to the empty
pattern, which matches at once and finds no replacement: KeyError. -/
def multipleReplace (string : Str) (table : AList Str Str) : Res Str :=
  if table.isEmpty then .error .keyError else .ok (subLoop table string)

end Verif.Strings
