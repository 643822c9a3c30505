import Verif.Model.Documents
/-
What C321-C327 say about documents.
-/
namespace Verif.Documents.Spec

/-- The file of a path holds a content, read with an encoding. -/
def Holds (env : Env) (fs : Fs) (binary : Bool) (charset : Str) (p : Path) (v : Val) : Prop :=
  ∃ b x, AList.get? fs p = some b ∧ env.load binary charset b = .ok x ∧ env.parse x = .ok v

/-- The file of a path is there, but cannot be read, for the encoding or for its syntax. -/
def Broken (env : Env) (fs : Fs) (charset : Str) (p : Path) : Prop :=
  ∃ b, AList.get? fs p = some b ∧ ((∃ e, env.load false charset b = .error e)
    ∨ ∃ x e, env.load false charset b = .ok x ∧ env.parse x = .error e)

/-- Nothing is kept of the present file. -/
def Unread (d : Doc) : Prop := d.raw.value = .none ∨ d.raw.inputs ≠ some (d.path, d.uri)

end Verif.Documents.Spec
