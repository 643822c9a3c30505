import Verif.Py
/-
Model of `gcs` (utils.py 276-283) and `mro` (utils.py 287-318). Classes are elements of an arbitrary
type with decidable equality; `lin C` is `C.__mro__` (`C.mro()`), an arbitrary list. Simplification:
classes are truthy (no metaclass `__bool__`), so `if not candidate` means "none found".
-/
set_option linter.unusedSectionVars false

namespace Verif.Mro
variable {α : Type} [DecidableEq α]

/-- utils.py 280-283 `gcs(*classes)`: `mros[0]` raises `IndexError` without classes; the first class
of the first linearisation that is in every linearisation; `None` when the loop ends. -/
def gcs (lin : α → List α) (classes : List α) : Res (Option α) :=
  let mros := classes.map lin
  match mros with
  | [] => .error .indexError
  | m0 :: _ => .ok (m0.find? (fun x => mros.all (fun m => m.contains x)))

/-- utils.py 304-311: the first head (in order of the sequences) that is in no tail `s[1:]`. -/
def candidate (nonEmpty : List (List α)) : List (List α) → Option α
  | [] => none
  | [] :: seqs => candidate nonEmpty seqs
  | (c :: _) :: seqs =>
    if (nonEmpty.filter (fun s => c ∈ s.tail)).isEmpty then some c else candidate nonEmpty seqs

/-- utils.py 315-318: `del seq[0]` when it is the candidate. -/
def dropHead (c : α) : List α → List α
  | [] => []
  | x :: s => if x = c then s else x :: s

theorem candidate_head {ne seqs : List (List α)} {c : α} (h : candidate ne seqs = some c) :
    ∃ s, (c :: s) ∈ seqs := by
  fun_induction candidate ne seqs with
  | case1 => cases h
  | case2 seqs ih => obtain ⟨s, hs⟩ := ih h; exact ⟨s, by simp [hs]⟩
  | case3 d t seqs _ => cases h; exact ⟨t, by simp⟩
  | case4 d t seqs _ ih => obtain ⟨s, hs⟩ := ih h; exact ⟨s, by simp [hs]⟩

theorem dropHead_le (c : α) (s : List α) : (dropHead c s).length ≤ s.length := by
  cases s <;> grind [dropHead]

theorem sum_dropHead_le (c : α) (l : List (List α)) :
    ((l.map (dropHead c)).map List.length).sum ≤ (l.map List.length).sum := by
  induction l with
  | nil => simp
  | cons s l ih => have := dropHead_le c s; simp only [List.map_cons, List.sum_cons]; omega

theorem sum_dropHead_lt (c : α) (l : List (List α)) (h : ∃ s, (c :: s) ∈ l) :
    ((l.map (dropHead c)).map List.length).sum < (l.map List.length).sum := by
  induction l with
  | nil => simp at h
  | cons t l ih =>
    have h1 := dropHead_le c t
    have h2 := sum_dropHead_le c l
    obtain ⟨s, hs⟩ := h
    simp only [List.map_cons, List.sum_cons]
    rcases List.mem_cons.1 hs with rfl | hs
    · simp only [dropHead, if_true, List.length_cons]; omega
    · have := ih ⟨s, hs⟩; omega

/-- utils.py 301 `list(filter(None, seqs))`. -/
def nonEmpties (seqs : List (List α)) : List (List α) := seqs.filter (· ≠ [])

theorem sum_filter_le (l : List (List α)) :
    ((nonEmpties l).map List.length).sum ≤ (l.map List.length).sum := by
  unfold nonEmpties
  induction l with
  | nil => simp
  | cons t l ih => cases t <;> simp <;> simpa using ih

/-- utils.py 299-318, the `while` loop: drop the empty sequences; done when none is left; find a
candidate or raise `TypeError`; append it and remove it from the heads. (The Python lists are shared
between `seqs` and `non_empty`; carrying `non_empty` to the next round is the same, since only
non-empty sequences are looked at.) -/
def mroLoop (seqs : List (List α)) (res : List α) : Res (List α) :=
  let nonEmpty := nonEmpties seqs
  if nonEmpty.isEmpty then .ok res
  else match _h : candidate nonEmpty nonEmpty with
    | none => .error .typeError
    | some c => mroLoop (nonEmpty.map (dropHead c)) (res ++ [c])
termination_by (seqs.map List.length).sum
decreasing_by
  exact Nat.lt_of_lt_of_le (sum_dropHead_lt c _ (candidate_head _h)) (sum_filter_le seqs)

/-- utils.py 287-318 `mro(*bases)`. -/
def mro (lin : α → List α) (bases : List α) : Res (List α) :=
  mroLoop (bases.map lin ++ [bases]) []

end Verif.Mro
