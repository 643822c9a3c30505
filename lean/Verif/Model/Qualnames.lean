import Verif.Py
import Verif.Val
import Verif.Num
/-
Model of /repo/ngoschema/utils/_qualname.py 40-126: the names of definitions, found by reading the source again.
Simplifications: a source is its syntax tree with the lines of the definitions, and its lines; of the tree only
definitions and other nodes are told apart (`ast.NodeVisitor.generic_visit` goes through the children in order, and for
nodes without a `visit_` method of their own, `async def` among them, only does that). Line numbers count from 1. Finding the
file and the line of an object (lines 78-97, `inspect`) is not modelled: they are given. Files are read and parsed
without fail when they exist.
-/
namespace Verif.Qualnames

/-- A node of the syntax tree. -/
inductive Ast where
  | func (name : Str) (line : Nat) (body : List Ast)
  | cls (name : Str) (line : Nat) (body : List Ast)
  | coro (name : Str) (line : Nat) (body : List Ast)
  | other (body : List Ast)

/-- `_Visitor`: the stack, the innermost name last, and the names found. -/
structure Vis where
  stack : List Str := []
  names : AList Nat Str := []

def locals : Str := "<locals>".toList

def Vis.push (v : Vis) (n : Str) : Vis := { v with stack := v.stack ++ [n] }
def Vis.pop (v : Vis) : Vis := { v with stack := v.stack.dropLast }

/-- Lines 49-51. -/
def Vis.store (v : Vis) (line : Nat) : Vis := { v with names := AList.set v.names line (joinWith ['.'] v.stack) }

mutual
/-- Lines 53-65, and `generic_visit` for the other nodes. -/
def visit (v : Vis) : Ast → Vis
  | .func n l b => (visitAll (((v.push n).store l).push locals) b).pop.pop
  | .cls n l b => (visitAll ((v.push n).store l) b).pop
  | .coro _ _ b => visitAll v b
  | .other b => visitAll v b
def visitAll (v : Vis) : List Ast → Vis
  | [] => v
  | a :: as => visitAll (visit v a) as
end

/-- Line 117: is the line with this number a decorator; `none` past the end (an IndexError). -/
def decorator (lines : List Str) (i : Nat) : Option Bool :=
  match lines[i - 1]? with
  | none => none
  | some s => some ((strip isSpace s).head? == some '@')

/-- Lines 115-121: the lines after `i` get the name too while the one before is a decorator; the names and what is
raised. The first argument bounds the lines left. -/
def follow (lines : List Str) (v : Str) : Nat → Nat → AList Nat Str → AList Nat Str × Option Exc
  | 0, _, t => (t, none)
  | n + 1, i, t =>
    match decorator lines i with
    | none => (t, some .indexError)
    | some false => (t, none)
    | some true => follow lines v n (i + 1) (AList.set t (i + 1) v)

/-- Lines 113-121, over a copy of the entries found. -/
def spread (lines : List Str) : List (Nat × Str) → AList Nat Str → AList Nat Str × Option Exc
  | [], t => (t, none)
  | (i, v) :: es, t =>
    match follow lines v (lines.length + 1) i t with
    | (t, some e) => (t, some e)
    | (t, none) => spread lines es t

/-- A source file. -/
structure Source where
  tree : Ast
  lines : List Str

/-- Lines 105-121: the names of a source, and what is raised. -/
def table (s : Source) : AList Nat Str × Option Exc :=
  spread s.lines (visit {} s.tree).names (visit {} s.tree).names

/-- Lines 123-126: `obj.__qualname__` is an AttributeError, as the object has none. -/
def pick (t : AList Nat Str) (line : Nat) : Res Str :=
  match AList.get? t line with
  | some q => .ok q
  | none => .error .attributeError

/-- Lines 68-126 for an object of `file` whose definition is at `line`; `own` is its `__qualname__` if it has one
(lines 72-73). The cache has the names of the files read before; if an error ends the reading, the names found so far
stay there (line 110, the same dict). -/
def qualname (cache : AList Str (AList Nat Str)) (disk : AList Str Source) (own : Option Str) (file : Str)
    (line : Nat) : Res Str × AList Str (AList Nat Str) :=
  match own with
  | some q => (.ok q, cache)
  | none =>
    match AList.get? cache file with
    | some t => (pick t line, cache)
    | none =>
      match AList.get? disk file with
      | none => (.error .osError, cache)
      | some s =>
        match table s with
        | (t, some e) => (.error e, AList.set cache file t)
        | (t, none) => (pick t line, AList.set cache file t)

end Verif.Qualnames
