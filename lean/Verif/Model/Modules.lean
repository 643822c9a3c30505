import Verif.Val
/-
Model of the registration of modules with the loaders of files: /repo/ngoschema/loaders/module.py 17-38, 72-84, 102 and
119-122.

Loaders are numbered as they are made. Simplified: a module that is registered can be imported, `folder` is the path of a
folder in it; the schemas that `load_module_schemas` loads are in Model/Loading.lean, the update of templates in
Model/Tools.lean.
-/
namespace Verif.Modules

/-- The files: the path of a folder of a module, and whether it exists. -/
structure Files where
  folder : Str → Str → Str
  isThere : Str → Bool

/-- A loader: the name of its folders, and the folders of each module. -/
structure Loader where
  sub : Str
  reg : AList Str (List Str)
  deriving DecidableEq, Repr

/-- All loaders, and `module_loaders_registry`. -/
structure World where
  loaders : List Loader
  byName : AList Str Nat
  deriving DecidableEq, Repr

def start : World := ⟨[], []⟩

/-- The folders of a module. -/
def folders (l : Loader) (m : Str) : List Str := (AList.get? l.reg m).getD []

/-- module.py 20-24. -/
def create (w : World) (sub : Str) : World :=
  ⟨w.loaders ++ [⟨sub, []⟩], AList.set w.byName sub w.loaders.length⟩

/-- module.py 26-38 `register(module, subfolder_name)`. -/
def register (fs : Files) (l : Loader) (m : Str) (name : Str) : Loader :=
  let f := fs.folder m (if name.isEmpty then l.sub else name)
  if fs.isThere f then
    { l with reg := AList.set l.reg m (if f ∈ folders l m then folders l m else folders l m ++ [f]) }
  else l

def registerAt (fs : Files) (w : World) (i : Nat) (m name : Str) : World :=
  { w with loaders := w.loaders.modify i (fun l => register fs l m name) }

/-- module.py 119-122 `register_module`; `sl`: the number of `schemas_module_loader` (84, 102). -/
def registerModule (fs : Files) (sl : Nat) (w : World) (m : Str) : World :=
  (w.byName.map Prod.snd).foldl (fun w i => registerAt fs w i m []) (registerAt fs w sl m [])

inductive Op where
  | create (sub : Str)
  | register (i : Nat) (m name : Str)
  | registerModule (m : Str)

def step (fs : Files) (sl : Nat) (w : World) : Op → World
  | .create sub => create w sub
  | .register i m name => registerAt fs w i m name
  | .registerModule m => registerModule fs sl w m

def run (fs : Files) (sl : Nat) (ops : List Op) : World := ops.foldl (step fs sl) start

end Verif.Modules
