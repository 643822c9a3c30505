import Verif.Model.Strings
import Verif.Model.ChainMap
/-
Smaller tools: the digest of a file (/repo/ngoschema/models/files.py 101-117), instances and hashes of contexts
(/repo/ngoschema/utils/utils.py 150-157), registries (utils.py 242-273), casting of classes (utils.py 530-539), globals,
folders and filters of templates (/repo/ngoschema/utils/jinja2.py 27-49, 172-179, 205-211).
-/
namespace Verif.Tools

/-! ### Digest -/

/-- A hash object: `update` and `hexdigest` of hashlib. -/
structure Hash (σ β : Type) where
  init : σ
  update : σ → List β → σ
  digest : σ → Str

/-- files.py 107-110, 113-116: the loop, on the successive results of `read(2 ** 16)`. A file gives at most that many
bytes at a time and nothing at its end; `reads` are the results, in order. -/
def hashLoop {σ β : Type} (h : Hash σ β) : List (List β) → σ → σ
  | [], s => s
  | b :: bs, s => if b.length ≠ 0 then hashLoop h bs (h.update s b) else s

/-- files.py 101-117 `get_sha1`, for something that gives `reads`. -/
def getSha1 {σ β : Type} (h : Hash σ β) (reads : List (List β)) : Str := h.digest (hashLoop h reads h.init)

/-- What reading a file of the content `c` gives, `k` bytes at a time: full blocks, the rest, nothing. `n`: the
number of reads looked at. -/
def fileReads {β : Type} (k : Nat) : Nat → List β → List (List β)
  | 0, _ => []
  | n + 1, c => c.take k :: fileReads k n (c.drop k)

/-! ### Contexts -/

/-- What is in a context: a mapping (an object), or another context (an object, and what is in it). -/
inductive CMap where
  | obj (a : Nat)
  | ctx (a : Nat) (maps : List CMap)

def CMap.addr : CMap → Nat
  | .obj a => a
  | .ctx a _ => a

/-- utils.py 150-154 `find_instance(cls, default, exclude, reverse)`: the address found, if any. `inst`:
`isinstance(m, cls)`. A generator cannot be reversed. -/
def findInstance (inst : CMap → Bool) (exclude : Option Nat) (reverse : Bool) (maps : List CMap) : Res (Option Nat) :=
  if reverse then .error .typeError
  else .ok ((maps.find? (fun m => inst m && some m.addr != exclude)).map CMap.addr)

/-- Insertion by key. -/
def insertKey {υ : Type} (lt : Str → Str → Bool) (p : Str × υ) : List (Str × υ) → List (Str × υ)
  | [] => [p]
  | q :: l => if lt q.1 p.1 then q :: insertKey lt p l else p :: q :: l

/-- `sorted(items)`, the keys being distinct texts, so that values are not compared. `lt`: the order of texts. -/
def sortItems {υ : Type} (lt : Str → Str → Bool) : List (Str × υ) → List (Str × υ)
  | [] => []
  | p :: l => insertKey lt p (sortItems lt l)

/-- utils.py 156-157 `hash(repr(sorted(self.merged.items())))`; `rep`: `repr` of an item, `hash`: that of texts. -/
def ctxHash {υ : Type} (lt : Str → Str → Bool) (ord : List Str → List Str) (rep : List (Str × υ) → Str) (hash : Str → Int)
    (c : ChainMap.Chain Str υ) : Res Int :=
  match c.merged ord with
  | .error e => .error e
  | .ok d => .ok (hash (rep (sortItems lt d)))

/-! ### Registries -/

/-- An object: which one it is, and what calling it gives, if it can be called. -/
structure Obj where
  addr : Nat
  call : Option Nat
  deriving DecidableEq, Repr

/-- utils.py 242-250 `WeakRegistry[key]`: `WeakValueDictionary` gives the object, as long as it is alive, and not a
reference to be called. -/
def weakGet (alive : Nat → Bool) (reg : AList Str Obj) (key : Str) : Res Nat :=
  match AList.get? reg key with
  | none => .error .keyError
  | some o => if alive o.addr then (match o.call with
    | none => .error .typeError
    | some r => .ok r) else .error .keyError

/-- utils.py 269-270 `GenericClassRegistry.get(id, default)`. -/
def classGet (reg : AList Str Obj) (id : Str) (_default : Option Nat) : Option Nat :=
  (AList.get? reg id).map Obj.addr

/-! ### Casting classes -/

/-- A class: its `__mro__` (itself first) among numbered classes; `dict`: the attributes of a class. -/
structure World where
  mro : Nat → List Nat
  dict : Nat → AList Str Nat
  wf : ∀ c, (dict c).WF

/-- `dict(ReadOnlyChainMap(*maps))`, the order of its keys aside. -/
def chainDict : List (AList Str Nat) → AList Str Nat
  | [] => []
  | m :: ms => AList.update (chainDict ms) m

/-- `not k.startswith('_')`. -/
def isPublic (k : Str) : Bool := k.head? != some '_'

/-- utils.py 530-539 `class_casted_as(cls, other)`: the attributes given to the new class, whose only base is `other`.
Simplified: classes whose metaclass is `type`, which takes the attributes as they are. -/
def castAttrs (w : World) (cls other : Nat) : Res (AList Str Nat) :=
  if other ∈ w.mro cls then
    .ok (AList.update (chainDict (((w.mro cls).filter (fun b => b ∉ w.mro other)).map w.dict))
      ((chainDict ((w.mro other).map w.dict)).filter (fun p => isPublic p.1)))
  else .error .attributeError

/-- Looking up an attribute of the new class: its own, then those of the classes of the order of `other`. -/
def castLookup (w : World) (other : Nat) (attrs : AList Str Nat) (k : Str) : Option Nat :=
  match AList.get? attrs k with
  | some v => some v
  | none => (w.mro other).findSome? (fun b => AList.get? (w.dict b) k)

/-! ### Templates -/

/-- `_jinja2_globals`, and the globals of the default environment once it exists (those of jinja2 itself, and `Query`,
are left out). -/
structure Env where
  globals : AList Str Val
  env : Option (AList Str Val)

inductive EnvOp where
  | extend (kw : AList Str Val)
  | use

/-- jinja2.py 34-49: `extend_jinja2_globals(**globals)` and `default_jinja2_env()`. -/
def envStep (s : Env) : EnvOp → Env
  | .extend kw => { s with globals := AList.update s.globals kw }
  | .use => match s.env with
    | some _ => s
    | none => { s with env := some s.globals }

def envRun (ops : List EnvOp) (s : Env) : Env := ops.foldl envStep s

/-- Folders are relative to that of their module. -/
abbrev Folder := List Str

/-- module.py 26-38 `register(module, subfolder_name)`, for a folder that exists, inside that of the module. -/
def registerFolder (reg : AList Str (List Folder)) (module : Str) (f : Folder) : AList Str (List Folder) :=
  let old := (AList.get? reg module).getD []
  AList.set reg module (if f ∈ old then old else old ++ [f])

/-- jinja2.py 205-211 `update_loader`: the folder of each module, `jinja2.PackageLoader(mname, path.name)`. -/
def loaderMapping : AList Str (List Folder) → AList Str Folder → AList Str Folder
  | [], acc => acc
  | (m, ps) :: reg, acc => loaderMapping reg (ps.foldl (fun acc p => AList.set acc m [p.getLast?.getD []]) acc)

/-! ### Filters -/

/-- The first cut of `str.split`. -/
def cutFirst (sep : Str) : Str → Option (Str × Str)
  | [] => if sep.isPrefixOf [] then some ([], []) else none
  | c :: cs =>
    if sep.isPrefixOf (c :: cs) then some ([], (c :: cs).drop sep.length)
    else match cutFirst sep cs with
      | some (a, b) => some (c :: a, b)
      | none => none

/-- `s.split(sep, n)` for a non-empty separator. -/
def splitN (sep : Str) : Nat → Str → List Str
  | 0, s => [s]
  | n + 1, s => match cutFirst sep s with
    | none => [s]
    | some (a, b) => a :: splitN sep n b

/-- How many cuts: all, for a negative number. -/
def cuts (maxsplit : Int) (s : Str) : Nat := if maxsplit < 0 then s.length + 1 else maxsplit.toNat

/-- jinja2.py 172-174 `split(string, sep=',', maxsplit=-1)`. -/
def splitFilter (string : Option Str) (sep : Str) (maxsplit : Int) : Res (List Str) :=
  let s := string.getD []
  if sep.isEmpty then .error .valueError else .ok (splitN sep (cuts maxsplit s) s)

/-- jinja2.py 177-179 `rsplit(string, sep=',', maxsplit=-1)`. -/
def rsplitFilter (string : Option Str) (sep : Str) (maxsplit : Int) : Res (List Str) :=
  let s := string.getD []
  if sep.isEmpty then .error .valueError else .ok (Strings.rsplit sep (cuts maxsplit s) s)

end Verif.Tools
