import Verif.Spec.ClassProps
/-
C329, C330: class properties.
-/
namespace Verif.ClassProps
open Spec

variable {σ : Type}

theorem lookup_declared (p : Prog σ) (s : St σ) (c : Cls) (name : Str) (i : Nat) (h : Declared p s c name i) :
    lookup s.attrs name (p.mro c) = some (.prop i) := by
  obtain ⟨before, d, after, hm, hd, hb⟩ := h
  rw [hm]
  clear hm
  induction before with
  | nil => simp only [List.nil_append, lookup, hd]
  | cons b before ih =>
    simp only [List.cons_append, lookup, hb b (by simp)]
    exact ih fun b' hb' => hb b' (by simp [hb'])

/-! ### C329: a class property is computed for the class it is asked of -/

/-- Asked of a class or of any instance, whatever this has of its own, the getter is called with the class, in the present
state. -/
theorem C329_get (p : Prog σ) (s : St σ) (c : Cls) (name : Str) (i : Nat) (h : Declared p s c name i) :
    getClass p s c name = p.getter i c s.box ∧ ∀ o, getInst p s c o name = p.getter i c s.box := by
  have := lookup_declared p s c name i h
  exact ⟨by simp only [getClass, this], fun o => by simp only [getInst, this]⟩

/-! ### C330: assigning a class property calls its setter -/

/-- By an instance, the setter is called with the class of the instance; where there is none it is refused. The property
stays, for all classes. -/
theorem C330_instance_partial (p : Prog σ) (s : St σ) (c : Cls) (name : Str) (i : Nat) (h : Declared p s c name i) (o : Nat)
    (v : Val) :
    (p.setter i = none → setInst p s c o name v = (.error .attributeError, s))
    ∧ (∀ f, p.setter i = some f → (setInst p s c o name v).1 = (f c v s.box).1
        ∧ (setInst p s c o name v).2.box = (f c v s.box).2)
    ∧ ∀ c' n j, Declared p s c' n j → Declared p (setInst p s c o name v).2 c' n j := by
  have hl := lookup_declared p s c name i h
  refine ⟨fun hs => by simp only [setInst, hl, hs], fun f hf => by simp only [setInst, hl, hf, true_and], fun c' n j hd => ?_⟩
  have ha : (setInst p s c o name v).2.attrs = s.attrs := by
    simp only [setInst, hl]
    cases p.setter i <;> rfl
  obtain ⟨before, d, after, hm, hd, hb⟩ := hd
  exact ⟨before, d, after, hm, by rw [ha]; exact hd, by rw [ha]; exact hb⟩

/-- What is no class property is assigned to the instance, which has it then; other instances, other names and the classes
are as before. -/
theorem C330_plain (p : Prog σ) (s : St σ) (c : Cls) (name : Str) (o : Nat) (v : Val)
    (h : ∀ d ∈ p.mro c, ∀ i, AList.get? (s.attrs d) name ≠ some (.prop i)) :
    (setInst p s c o name v).1 = .ok () ∧ getInst p (setInst p s c o name v).2 c o name = .ok v
    ∧ (∀ c' o' n, o' ≠ o ∨ n ≠ name → getInst p (setInst p s c o name v).2 c' o' n = getInst p s c' o' n)
    ∧ ∀ c' n, getClass p (setInst p s c o name v).2 c' n = getClass p s c' n := by
  have hl : ∀ l : List Cls, (∀ d ∈ l, ∀ i, AList.get? (s.attrs d) name ≠ some (.prop i)) →
      ∀ i, lookup s.attrs name l ≠ some (.prop i) := by
    intro l
    induction l with
    | nil => intro _ i; simp [lookup]
    | cons d l ih =>
      intro hd i
      rw [lookup]
      split
      · rename_i x hx
        intro e
        injection e with e
        exact hd d (by simp) i (by rw [hx, e])
      · exact ih (fun d' hd' => hd d' (by simp [hd'])) i
  have hn := hl _ h
  have e : setInst p s c o name v
      = (.ok (), { s with inst := fun x => if x = o then AList.set (s.inst o) name v else s.inst x }) := by
    unfold setInst
    split
    · rename_i i hi; exact absurd hi (hn i)
    · rfl
  rw [e]
  refine ⟨rfl, ?_, fun c' o' n hne => ?_, fun c' n => rfl⟩
  · simp only [getInst]
    cases hx : lookup s.attrs name (p.mro c) with
    | none => simp only [if_true, AList.get?_set_self]
    | some x =>
      cases x with
      | prop i => exact absurd hx (hn i)
      | value w => simp only [if_true, AList.get?_set_self, Option.getD]
  · have : AList.get? (if o' = o then AList.set (s.inst o) name v else s.inst o') n = AList.get? (s.inst o') n := by
      by_cases ho : o' = o
      · have hn : n ≠ name := hne.resolve_left (fun h => h ho)
        rw [if_pos ho, AList.get?_set, if_neg (Ne.symm hn), ho]
      · rw [if_neg ho]
    simp only [getInst, this]

/-- By the class, the setter is never called: the value replaces the property, for the class and for its instances that
have nothing of their own, also where there is no setter. -/
theorem C330_class_violated (p : Prog σ) (s : St σ) (c : Cls) (name : Str) (rest : List Cls) (hm : p.mro c = c :: rest)
    (v : Val) :
    (setClass s c name v).1 = .ok () ∧ (setClass s c name v).2.box = s.box
    ∧ getClass p (setClass s c name v).2 c name = .ok v
    ∧ (∀ i, ¬ Declared p (setClass s c name v).2 c name i)
    ∧ ∀ o, AList.get? (s.inst o) name = none → getInst p (setClass s c name v).2 c o name = .ok v := by
  have hl : lookup (setClass s c name v).2.attrs name (p.mro c) = some (.value v) := by
    rw [hm]
    simp only [setClass, lookup, if_true, AList.get?_set_self]
  refine ⟨rfl, rfl, by simp only [getClass, hl], fun i hd => ?_, fun o ho => ?_⟩
  · have := lookup_declared p _ c name i hd
    rw [hl] at this
    cases this
  · simp only [getInst, hl]
    simp only [setClass, ho, Option.getD]

/-- Class 1 derives from class 0, which has a class property `x` that gives the number of the class plus the box. -/
def toy : Prog Int where
  mro := fun c => if c = 1 then [1, 0] else [c]
  getter := fun _ c b => .ok (.int (c + b))
  setter := fun _ => some fun c v b => match v with
    | .int i => (.ok (), i + c)
    | _ => (.error .typeError, b)

def toySt : St Int := ⟨fun c => if c = 0 then [("x".toList, .prop 0)] else [], fun _ => [("x".toList, .int 9)], 5⟩

example : Declared toy toySt 1 "x".toList 0 := ⟨[1], 0, [], by decide +kernel, by decide +kernel, by decide +kernel⟩
example : getClass toy toySt 1 "x".toList = .ok (.int 6) ∧ getInst toy toySt 1 3 "x".toList = .ok (.int 6) := by decide +kernel
example : getClass toy (setInst toy toySt 1 3 "x".toList (.int 7)).2 1 "x".toList = .ok (.int 9) := by decide +kernel
example : getInst toy (setInst toy toySt 1 3 "y".toList (.int 7)).2 1 3 "y".toList = .ok (.int 7)
    ∧ getInst toy (setInst toy toySt 1 3 "y".toList (.int 7)).2 1 4 "y".toList = .error .attributeError := by decide +kernel
example : getClass toy (setClass toySt 1 "x".toList (.int 7)).2 1 "x".toList = .ok (.int 7)
    ∧ getClass toy (setClass toySt 1 "x".toList (.int 7)).2 0 "x".toList = .ok (.int 5) := by decide +kernel

end Verif.ClassProps
