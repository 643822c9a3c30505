import Verif.Model.Files
/-
Specification for C78, C105, C106.
-/
namespace Verif.Files

/-- What is written is read back. -/
def Lossless (c : Codec) : Prop := ∀ s b, c.enc s = some b → c.dec b = some s

/-- What is added at the end of a readable file is read back after what was there. -/
def Appends (c : Codec) : Prop :=
  ∀ b s t x, c.dec b = some s → c.enc t = some x → c.dec (b ++ x) = some (s ++ t)

/-- The text in a file under an encoding. -/
def FS.text? (fs : FS) (c : Codec) (p : Path) : Option Str := (AList.get? fs.files p).bind c.dec

/-- Nothing but (the content of) one file changed; directories may have been added. -/
def OnlyFile (p : Path) (fs fs' : FS) : Prop :=
  (∀ q, q ≠ p → AList.get? fs'.files q = AList.get? fs.files q) ∧ (∀ d, d ∈ fs.dirs → d ∈ fs'.dirs)

/-- Operations of a saver on text files, on any paths. -/
inductive Op where
  | write (p : Path) (s : Str)
  | append (p : Path) (s : Str)
  deriving DecidableEq

/-- What a history makes of the text of a path: the last write, then the later appends. -/
def expected (p : Path) : Option Str → List Op → Option Str
  | t, [] => t
  | t, .write q s :: ops => expected p (if q = p then some s else t) ops
  | t, .append q s :: ops => expected p (if q = p then t.map (· ++ s) else t) ops

/-- A history of operations that all succeed. -/
inductive Run {κ : Type} (codecs : κ → Option Codec) (loc : Codec) (sv : Saver κ) : FS → List Op → FS → Prop where
  | nil (fs : FS) : Run codecs loc sv fs [] fs
  | write (fs fs' fs'' : FS) (p : Path) (s : Str) (ops : List Op)
      (h : writeFile codecs loc sv ⟨none, none⟩ fs p (.text s) = (fs', .ok ())) (r : Run codecs loc sv fs' ops fs'') :
      Run codecs loc sv fs (.write p s :: ops) fs''
  | append (fs fs' fs'' : FS) (p : Path) (s : Str) (ops : List Op)
      (h : appendFile codecs loc sv ⟨none, none⟩ fs p (.text s) = (fs', .ok ())) (r : Run codecs loc sv fs' ops fs'') :
      Run codecs loc sv fs (.append p s :: ops) fs''

end Verif.Files
