import Verif.Py
/-
JSON-like documents, as handled by the code of /repo/ngoschema: the values that json, yaml and
xmltodict produce and that instances are made from. Not code of the repository; the vocabulary of the
models. Simplifications: no floats, no dates, no arbitrary objects; keys of dictionaries are strings;
a Python string is the list of its code points.
-/
namespace Verif

/-- A Python `str`. -/
abbrev Str := List Char

/-- A document. `dict` keeps insertion order. -/
inductive Val where
  | none
  | bool (b : Bool)
  | int (i : Int)
  | str (s : Str)
  | list (l : List Val)
  | dict (d : List (Str × Val))
  deriving Repr, Inhabited

namespace Val

mutual
/-- Structural equality is decidable. -/
def decEq : (a b : Val) → Decidable (a = b)
  | .none, .none => isTrue rfl
  | .bool a, .bool b => if h : a = b then isTrue (by rw [h]) else isFalse (by simpa using h)
  | .int a, .int b => if h : a = b then isTrue (by rw [h]) else isFalse (by simpa using h)
  | .str a, .str b => if h : a = b then isTrue (by rw [h]) else isFalse (by simpa using h)
  | .list a, .list b => match decEqList a b with
    | isTrue h => isTrue (by rw [h])
    | isFalse h => isFalse (by simpa using h)
  | .dict a, .dict b => match decEqDict a b with
    | isTrue h => isTrue (by rw [h])
    | isFalse h => isFalse (by simpa using h)
  | .none, .bool _ | .none, .int _ | .none, .str _ | .none, .list _ | .none, .dict _
  | .bool _, .none | .bool _, .int _ | .bool _, .str _ | .bool _, .list _ | .bool _, .dict _
  | .int _, .none | .int _, .bool _ | .int _, .str _ | .int _, .list _ | .int _, .dict _
  | .str _, .none | .str _, .bool _ | .str _, .int _ | .str _, .list _ | .str _, .dict _
  | .list _, .none | .list _, .bool _ | .list _, .int _ | .list _, .str _ | .list _, .dict _
  | .dict _, .none | .dict _, .bool _ | .dict _, .int _ | .dict _, .str _ | .dict _, .list _ =>
    isFalse (by simp)
/-- The same for lists of documents. -/
def decEqList : (a b : List Val) → Decidable (a = b)
  | [], [] => isTrue rfl
  | [], _ :: _ => isFalse (by simp)
  | _ :: _, [] => isFalse (by simp)
  | a :: as, b :: bs => match decEq a b, decEqList as bs with
    | isTrue h, isTrue h' => isTrue (by rw [h, h'])
    | isFalse h, _ => isFalse (by simp [h])
    | _, isFalse h => isFalse (by simp [h])
/-- The same for dictionary contents. -/
def decEqDict : (a b : List (Str × Val)) → Decidable (a = b)
  | [], [] => isTrue rfl
  | [], _ :: _ => isFalse (by simp)
  | _ :: _, [] => isFalse (by simp)
  | (k, a) :: as, (k', b) :: bs =>
    if hk : k = k' then match decEq a b, decEqDict as bs with
      | isTrue h, isTrue h' => isTrue (by rw [hk, h, h'])
      | isFalse h, _ => isFalse (by simp [h])
      | _, isFalse h => isFalse (by simp [h])
    else isFalse (by simp [hk])
end

instance : DecidableEq Val := decEq

/-- Induction over documents. -/
theorem induct {P : Val → Prop} (none : P .none) (bool : ∀ b, P (.bool b)) (int : ∀ i, P (.int i))
    (str : ∀ s, P (.str s)) (list : ∀ l, (∀ v ∈ l, P v) → P (.list l))
    (dict : ∀ d, (∀ kv ∈ d, P kv.2) → P (.dict d)) (v : Val) : P v := by
  refine Val.rec (motive_1 := P) (motive_2 := fun l => ∀ v ∈ l, P v)
    (motive_3 := fun d => ∀ kv ∈ d, P kv.2) (motive_4 := fun kv => P kv.2)
    none bool int str list dict (by simp) ?_ (by simp) ?_ (fun _ _ h => h) v
  · intro h t hh ht x hx
    rcases List.mem_cons.1 hx with rfl | hx
    · exact hh
    · exact ht x hx
  · intro h t hh ht x hx
    rcases List.mem_cons.1 hx with rfl | hx
    · exact hh
    · exact ht x hx

/-- Python truth value: `None`, `False`, `0` and empty strings and collections are false. -/
def truthy : Val → Bool
  | .none => false
  | .bool b => b
  | .int i => i != 0
  | .str s => !s.isEmpty
  | .list l => !l.isEmpty
  | .dict d => !d.isEmpty

end Val

/-- Python indexing of a sequence by an integer: negative indices count from the end; `none` stands for
IndexError. -/
def pyIndex {α} (l : List α) (i : Int) : Option α :=
  if 0 ≤ i then l[i.toNat]?
  else if 0 ≤ (l.length : Int) + i then l[((l.length : Int) + i).toNat]?
  else none

/-- `str.split(sep)` for a one-character separator. -/
def splitOn (sep : Char) : Str → List Str
  | [] => [[]]
  | c :: cs =>
    if c = sep then [] :: splitOn sep cs
    else match splitOn sep cs with
      | [] => [[c]]
      | w :: ws => (c :: w) :: ws

/-- `str.strip(chars)`, left side. -/
def lstrip (p : Char → Bool) (s : Str) : Str := s.dropWhile p

/-- `str.strip(chars)`. -/
def strip (p : Char → Bool) (s : Str) : Str := (lstrip p (lstrip p s).reverse).reverse

/-- `sep.join(words)`. -/
def joinWith (sep : Str) : List Str → Str
  | [] => []
  | [w] => w
  | w :: ws => w ++ sep ++ joinWith sep ws

theorem splitOn_ne_nil (sep : Char) (s : Str) : splitOn sep s ≠ [] := by
  cases s with
  | nil => simp [splitOn]
  | cons c cs =>
    rw [splitOn]
    split
    · simp
    · split <;> simp

theorem splitOn_of_notMem {sep : Char} {s : Str} (h : sep ∉ s) : splitOn sep s = [s] := by
  induction s with
  | nil => rfl
  | cons c cs ih =>
    simp only [List.mem_cons, not_or] at h
    rw [splitOn, if_neg (Ne.symm h.1), ih h.2]

theorem splitOn_append {sep : Char} {w s : Str} (h : sep ∉ w) :
    splitOn sep (w ++ sep :: s) = w :: splitOn sep s := by
  induction w with
  | nil => simp [splitOn]
  | cons c cs ih =>
    simp only [List.mem_cons, not_or] at h
    rw [List.cons_append, splitOn, if_neg (Ne.symm h.1), ih h.2]

/-- Splitting what was joined gives the words back. -/
theorem splitOn_joinWith {sep : Char} (ws : List Str) (hne : ws ≠ []) (h : ∀ w ∈ ws, sep ∉ w) :
    splitOn sep (joinWith [sep] ws) = ws := by
  induction ws with
  | nil => exact absurd rfl hne
  | cons w ws ih =>
    cases ws with
    | nil => exact splitOn_of_notMem (h w (by simp))
    | cons w' ws =>
      rw [joinWith, List.append_assoc, List.singleton_append,
        splitOn_append (h w (by simp)), ih (by simp) (fun v hv => h v (by simp [hv]))]
      simp

/-- Joining what was split gives the string back. -/
theorem joinWith_splitOn (sep : Char) (s : Str) : joinWith [sep] (splitOn sep s) = s := by
  induction s with
  | nil => rfl
  | cons c cs ih =>
    rw [splitOn]
    split
    · rename_i h; subst h
      cases hs : splitOn c cs with
      | nil => exact absurd hs (splitOn_ne_nil _ _)
      | cons w ws => rw [hs] at ih; rw [joinWith, ih]; rfl; simp
    · cases hs : splitOn sep cs with
      | nil => exact absurd hs (splitOn_ne_nil _ _)
      | cons w ws =>
        rw [hs] at ih
        cases ws with
        | nil => simp only [joinWith] at ih ⊢; rw [ih]
        | cons w' ws => simp only [joinWith] at ih ⊢; rw [← ih]; simp

theorem splitOn_notMem {sep : Char} {s w : Str} (h : w ∈ splitOn sep s) : sep ∉ w := by
  induction s generalizing w with
  | nil => simp [splitOn] at h; subst h; simp
  | cons c cs ih =>
    rw [splitOn] at h
    split at h
    · rcases List.mem_cons.1 h with rfl | h
      · simp
      · exact ih h
    · rename_i hc
      split at h
      · simp at h; subst h; simpa using Ne.symm hc
      · rename_i w' ws hs
        rcases List.mem_cons.1 h with rfl | h
        · have := ih (w := w') (by rw [hs]; simp)
          simp [this, Ne.symm hc]
        · exact ih (by rw [hs]; simp [h])

end Verif
