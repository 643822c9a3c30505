import Verif.Spec.Setters
/-
C318-C320: setters and deleters of properties.
-/
namespace Verif.Setters
open Spec
variable {ε ι : Type} [DecidableEq ι]

theorem outdated_false (p : Prp ε ι) (e : ε) (s : Slot ι) : outdated p e s = false ↔ Settled p e s := by
  simp only [outdated, Settled, Bool.or_eq_false_iff, Bool.and_eq_false_iff, decide_eq_false_iff_not,
    Classical.not_not]
  constructor
  · rintro ⟨h, h'⟩
    exact ⟨fun hn => h.elim (fun h => absurd hn h) id, h'⟩
  · rintro ⟨h, h'⟩
    refine ⟨?_, h'⟩
    by_cases hn : s.validated = .none
    · exact .inr (h hn)
    · exact .inl hn

/-- The result of an evaluation is settled. -/
theorem settled_set (p : Prp ε ι) (hp : Regular p) (e : ε) (s : Slot ι) (w : Val) (hw : p.conv e s.data = .ok w) :
    Settled p e { setValidated p w s with recorded := p.inputs e s.data } := by
  unfold setValidated Settled
  simp only
  cases ht : (p.prim && p.tpl s.data) with
  | true =>
    simp only [if_true]
    exact ⟨fun h => absurd h (hp.value e _ w hw ht), trivial⟩
  | false =>
    simp only [Bool.false_eq_true, if_false]
    exact ⟨id, (hp.inputs e _ w hw ht).symm⟩

theorem setData_data (p : Prp ε ι) (v : Val) (s : Slot ι) : (setData p v s).data = v := by
  unfold setData
  split <;> rfl

/-- An assignment that is not lazy, with a value that is converted. -/
theorem assign_ok (p : Prp ε ι) (hp : Regular p) (hl : p.lazy = false) (hr : p.readOnly = false) (st : St ε ι) (s : Slot ι)
    (hs : st.slot = some s) (v w : Val) (hw : p.conv st.env v = .ok w) :
    ∃ s', Settled p st.env s' ∧ s'.validated = w ∧ assign p v st = tell p w { st with slot := some s' } := by
  refine ⟨{ setValidated p w (setData p v s) with recorded := p.inputs st.env v }, ?_, rfl, ?_⟩
  · have := settled_set p hp st.env (setData p v s) w (by rw [setData_data]; exact hw)
    rwa [setData_data] at this
  · simp only [assign, hr, hl, hs, hw, Bool.false_eq_true, if_false, setValidated]

theorem assign_bad (p : Prp ε ι) (hl : p.lazy = false) (hr : p.readOnly = false) (st : St ε ι) (s : Slot ι)
    (hs : st.slot = some s) (v : Val) (e : Exc) (hw : p.conv st.env v = .error e) :
    ∃ s', s'.data = v ∧ s'.recorded = p.inputs st.env v ∧ assign p v st = (.error e, { st with slot := some s' }) := by
  refine ⟨{ setData p v s with recorded := p.inputs st.env v }, setData_data p v s, rfl, ?_⟩
  simp only [assign, hr, hl, hs, hw, Bool.false_eq_true, if_false]

theorem read_settled (p : Prp ε ι) (st : St ε ι) (s : Slot ι) (hs : st.slot = some s) (h : Settled p st.env s) :
    read p st = (.ok s.validated, st) := by
  simp only [read, hs, (outdated_false p st.env s).2 h, Bool.false_eq_true, if_false]

theorem read_outdated (p : Prp ε ι) (hp : Regular p) (st : St ε ι) (s : Slot ι) (hs : st.slot = some s)
    (h : ¬ Settled p st.env s) (w : Val) (hw : p.conv st.env s.data = .ok w) :
    ∃ s', Settled p st.env s' ∧ s'.validated = w ∧
      (read p st).2 = { st with slot := some s', told := st.told ++ [w] } ∧
      (read p st).1 = (match p.setter w with | some e => .error e | none => .ok w) := by
  have ho : outdated p st.env s = true := by
    cases ho : outdated p st.env s with
    | true => rfl
    | false => exact absurd ((outdated_false p st.env s).1 ho) h
  refine ⟨_, settled_set p hp st.env s w hw, rfl, ?_, ?_⟩
  · simp only [read, hs, ho, if_true, hw, tell]
    cases p.setter w <;> rfl
  · simp only [read, hs, ho, if_true, hw, tell]
    cases p.setter w <;> rfl

/-- Reading what is settled tells nothing. -/
theorem reads_settled (p : Prp ε ι) (n : Nat) (st : St ε ι) (s : Slot ι) (hs : st.slot = some s)
    (h : Settled p st.env s) : run p st (List.replicate n .read) = st := by
  induction n with
  | zero => rfl
  | succ n ih =>
    have : run p st (List.replicate (n + 1) .read) = run p (read p st).2 (List.replicate n .read) := rfl
    rw [this, read_settled p st s hs h]
    exact ih

/-! ### C318: a setter is told each value that is assigned -/

/-- Without lazy loading, while what the property depends on stays as it is: the setter is told the values that are
assigned and can be converted, in order, each once, and nothing else, whatever is read in between and whether or not it
raises. -/
theorem C318_eager_partial (p : Prp ε ι) (hp : Regular p) (hl : p.lazy = false) (hr : p.readOnly = false) (st : St ε ι)
    (s : Slot ι) (hs : st.slot = some s) (h : Settled p st.env s) (ops : List (Op ε)) (hf : Fixed ops) :
    (run p st ops).told = st.told ++ due (p.conv st.env) ops := by
  suffices H : ∀ (st : St ε ι) (s : Slot ι), st.slot = some s →
      (Settled p st.env s ∨ ∃ x, p.conv st.env s.data = .error x) →
      (run p st ops).told = st.told ++ due (p.conv st.env) ops from H st s hs (.inl h)
  clear h hs s st
  induction ops with
  | nil => intro st s _ _; simp [run, due]
  | cons o ops ih =>
    intro st s hs h
    have ih := ih (fun o ho => hf o (List.mem_cons_of_mem _ ho))
    have hrun : run p st (o :: ops) = run p (step p st o) ops := rfl
    rw [hrun]
    cases o with
    | change e => exact absurd rfl (hf _ (List.mem_cons_self ..) e)
    | read =>
      have hst : (read p st).2 = st := by
        rcases h with h | ⟨x, h⟩
        · rw [read_settled p st s hs h]
        · simp only [read, hs, h]
          split <;> rfl
      simp only [step, hst, due]
      exact ih st s hs h
    | assign v =>
      simp only [step, due]
      cases hw : p.conv st.env v with
      | ok w =>
        obtain ⟨s', h1, -, h3⟩ := assign_ok p hp hl hr st s hs v w hw
        rw [h3]
        have := ih (tell p w { st with slot := some s' }).2 s' rfl (.inl h1)
        rw [this]
        simp [tell]
      | error x =>
        obtain ⟨s', h1, -, h3⟩ := assign_bad p hl hr st s hs v x hw
        rw [h3]
        exact ih { st with slot := some s' } s' rfl (.inr ⟨x, by rw [h1]; exact hw⟩)

/-- If what the property depends on changes its inputs, the setter is told the new value when the property is next read,
once. -/
theorem C318_change_partial (p : Prp ε ι) (hp : Regular p) (st : St ε ι) (s : Slot ι) (hs : st.slot = some s) (e : ε)
    (h : Settled p st.env s) (hi : p.inputs e s.data ≠ p.inputs st.env s.data) (w : Val) (hw : p.conv e s.data = .ok w)
    (n : Nat) : (run p st (.change e :: .read :: List.replicate n .read)).told = st.told ++ [w] := by
  have hn : ¬ Settled p e s := fun h' => hi (by rw [← h'.2, h.2])
  obtain ⟨s', h1, -, h3, -⟩ := read_outdated p hp { st with env := e } s hs hn w hw
  have : run p st (.change e :: .read :: List.replicate n .read)
      = run p (read p { st with env := e }).2 (List.replicate n .read) := rfl
  rw [this, h3]
  exact congrArg St.told (reads_settled p n { st with env := e, slot := some s', told := st.told ++ [w] } s' rfl h1)

/-- With lazy loading the setter is told nothing by assignments, so what is not read before the next one is lost. -/
theorem C318_lazy_violated (p : Prp ε ι) (hl : p.lazy = true) (st : St ε ι) (vs : List Val) :
    (run p st (vs.map .assign)).told = st.told := by
  induction vs generalizing st with
  | nil => rfl
  | cons v vs ih =>
    have hrun : run p st ((v :: vs).map .assign) = run p (assign p v st).2 (vs.map .assign) := rfl
    rw [hrun, ih]
    simp only [assign, hl, if_true]
    split
    · rfl
    · split <;> rfl

/-- With lazy loading, a value that differs from the present one is told when it is read, once. -/
theorem C318_lazy_partial (p : Prp ε ι) (hp : Regular p) (hl : p.lazy = true) (hr : p.readOnly = false) (st : St ε ι)
    (s : Slot ι) (hs : st.slot = some s) (v w : Val) (hv : v ≠ .none) (hd : p.prim = false ∨ Query.pyEq v s.data = false)
    (hw : p.conv st.env v = .ok w) (n : Nat) :
    (run p st (.assign v :: .read :: List.replicate n .read)).told = st.told ++ [w] := by
  have ha : assign p v st = (.ok (), { st with slot := some ⟨v, .none, p.empty⟩ }) := by
    have : (p.prim && Query.pyEq v s.data) = false := by
      rcases hd with h | h <;> simp [h]
    simp only [assign, hr, hs, hl, Bool.false_eq_true, if_false, if_true, setData, this]
  have hn : ¬ Settled p st.env (⟨v, .none, p.empty⟩ : Slot ι) := fun h => hv (h.1 rfl)
  obtain ⟨s', h1, -, h3, -⟩ := read_outdated p hp { st with slot := some ⟨v, .none, p.empty⟩ } _ rfl hn w hw
  have : run p st (.assign v :: .read :: List.replicate n .read)
      = run p (read p (assign p v st).2).2 (List.replicate n .read) := rfl
  rw [this, ha, h3]
  exact congrArg St.told (reads_settled p n { st with slot := some s', told := st.told ++ [w] } s' rfl h1)

/-- With lazy loading, a value that equals the present one is never told. -/
theorem C318_same_violated (p : Prp ε ι) (hl : p.lazy = true) (hp : p.prim = true) (st : St ε ι) (s : Slot ι)
    (hs : st.slot = some s) (h : Settled p st.env s) (hn : s.validated ≠ .none) (v : Val)
    (hv : Query.pyEq v s.data = true) (hi : p.inputs st.env v = p.inputs st.env s.data) (n : Nat) :
    (run p st (.assign v :: List.replicate n .read)).told = st.told := by
  have hrun : run p st (.assign v :: List.replicate n .read) = run p (assign p v st).2 (List.replicate n .read) := rfl
  rw [hrun]
  unfold assign
  split
  · rw [reads_settled p n st s hs h]
  · simp only [hs, hl, if_true, setData, hp, hv, Bool.and_self]
    rw [reads_settled p n _ { s with data := v } rfl ⟨fun h' => absurd h' hn, by simp only; rw [h.2, hi]⟩]

/-! ### C319: an assignment that fails leaves the property as it was -/

/-- If the setter raises, the assignment fails, but the property has the new value, and the setter is not told it again. -/
theorem C319_setter_violated (p : Prp ε ι) (hp : Regular p) (hl : p.lazy = false) (hr : p.readOnly = false) (st : St ε ι)
    (s : Slot ι) (hs : st.slot = some s) (v w : Val) (e : Exc) (hw : p.conv st.env v = .ok w) (he : p.setter w = some e) :
    (assign p v st).1 = .error e ∧ (read p (assign p v st).2) = (.ok w, (assign p v st).2) := by
  obtain ⟨s', h1, h2, h3⟩ := assign_ok p hp hl hr st s hs v w hw
  rw [h3]
  refine ⟨by simp [tell, he], ?_⟩
  have := read_settled p (tell p w { st with slot := some s' }).2 s' rfl h1
  rw [this, h2]

/-- With lazy loading it is reading that fails, the first time; the next time the value is given. -/
theorem C319_lazy_violated (p : Prp ε ι) (hp : Regular p) (st : St ε ι) (s : Slot ι) (hs : st.slot = some s)
    (h : ¬ Settled p st.env s) (w : Val) (e : Exc) (hw : p.conv st.env s.data = .ok w) (he : p.setter w = some e) :
    (read p st).1 = .error e ∧ (read p (read p st).2) = (.ok w, (read p st).2) := by
  obtain ⟨s', h1, h2, h3, h4⟩ := read_outdated p hp st s hs h w hw
  have := read_settled p { st with slot := some s', told := st.told ++ [w] } s' rfl h1
  rw [h4, he, h3, this, h2]
  exact ⟨rfl, rfl⟩

/-! ### C336: an error met in reading reaches the reader -/

/-- An error of the setter which is no AttributeError is raised by the attribute as by the item, and so is every error in
converting the value. -/
theorem C336_raised_partial (p : Prp ε ι) (st : St ε ι) :
    ((read p st).1 ≠ .error .attributeError → readAttr p st = read p st) ∧
    (∀ s e, st.slot = some s → ¬ Settled p st.env s → p.conv st.env s.data = .error e →
      readAttr p st = (.error e, st) ∧ read p st = (.error e, st)) := by
  constructor
  · intro h
    unfold readAttr
    split
    · rename_i st' e
      rw [e] at h
      exact absurd rfl h
    · rfl
  · intro s e hs h hw
    have ho : outdated p st.env s = true := by
      cases ho : outdated p st.env s with
      | true => rfl
      | false => exact absurd ((outdated_false p st.env s).1 ho) h
    have hr : read p st = (.error e, st) := by simp only [read, hs, ho, if_true, hw]
    refine ⟨?_, hr⟩
    unfold readAttr
    rw [hr]
    split
    · rename_i st' e'
      cases e'
      exact hr
    · rfl

/-- An AttributeError of the setter is raised by the item, and not by the attribute: it gives the value that the setter
has refused, which is told once. -/
theorem C336_setter_violated (p : Prp ε ι) (hp : Regular p) (st : St ε ι) (s : Slot ι) (hs : st.slot = some s)
    (h : ¬ Settled p st.env s) (w : Val) (hw : p.conv st.env s.data = .ok w) (he : p.setter w = some .attributeError) :
    (read p st).1 = .error .attributeError ∧ (readAttr p st).1 = .ok w ∧ (readAttr p st).2.told = st.told ++ [w] := by
  obtain ⟨s', h1, h2, h3, h4⟩ := read_outdated p hp st s hs h w hw
  have hr := read_settled p { st with slot := some s', told := st.told ++ [w] } s' rfl h1
  have h5 : read p st = (.error .attributeError, { st with slot := some s', told := st.told ++ [w] }) := by
    rw [he] at h4
    exact Prod.ext h4 h3
  have : readAttr p st = (.ok w, { st with slot := some s', told := st.told ++ [w] }) := by
    unfold readAttr
    rw [h5]
    simp only
    rw [hr, h2]
  rw [this, h4, he]
  exact ⟨rfl, rfl, rfl⟩

/-- If the value cannot be converted, the assignment fails, and so does every reading that follows. -/
theorem C319_value_violated (p : Prp ε ι) (hl : p.lazy = false) (hr : p.readOnly = false) (st : St ε ι)
    (s : Slot ι) (hs : st.slot = some s) (v : Val) (hv : v ≠ .none) (hd : p.prim = false ∨ Query.pyEq v s.data = false)
    (e : Exc) (hw : p.conv st.env v = .error e) :
    (assign p v st).1 = .error e ∧ (read p (assign p v st).2) = (.error e, (assign p v st).2) := by
  have hd : (p.prim && Query.pyEq v s.data) = false := by
    rcases hd with h | h <;> simp [h]
  simp [assign, hr, hl, hs, hw, setData, hd, read, outdated, hv]

/-- Of a property that is read only nothing changes. Otherwise, if the assignment succeeds, the value is read. -/
theorem C319_refused_partial (p : Prp ε ι) (hp : Regular p) (hl : p.lazy = false) (st : St ε ι) (s : Slot ι)
    (hs : st.slot = some s) (v : Val) :
    (p.readOnly = true → assign p v st = (.error .attributeError, st))
    ∧ ((assign p v st).1 = .ok () → ∃ w, p.conv st.env v = .ok w ∧ (read p (assign p v st).2).1 = .ok w) := by
  refine ⟨fun h => by simp [assign, h], fun h => ?_⟩
  cases hr : p.readOnly with
  | true => simp [assign, hr] at h
  | false =>
    cases hw : p.conv st.env v with
    | error e =>
      obtain ⟨s', -, -, h3⟩ := assign_bad p hl hr st s hs v e hw
      rw [h3] at h
      cases h
    | ok w =>
      obtain ⟨s', h1, h2, h3⟩ := assign_ok p hp hl hr st s hs v w hw
      refine ⟨w, rfl, ?_⟩
      have := read_settled p (tell p w { st with slot := some s' }).2 s' rfl h1
      rw [h3, this, h2]

/-! ### C320: the deleter decides on the deletion of a property -/

/-- `del obj.x`: a required property is not deleted, and the deleter not called. Otherwise it is called once, and if it
raises the property stays. -/
theorem C320_attribute_partial (p : Prp ε ι) (st : St ε ι) :
    (p.required = true → delete p st = (.error .attributeError, st))
    ∧ (p.required = false → (delete p st).2.deleted = st.deleted + 1
      ∧ (∀ e, p.deleter = some e → (delete p st).1 = .error e ∧ (delete p st).2.slot = st.slot)
      ∧ (p.deleter = none → (delete p st).2.slot = none ∧ ((delete p st).1 = .ok () ↔ st.slot ≠ none))) := by
  refine ⟨fun h => by simp [delete, h], fun h => ?_⟩
  cases hd : p.deleter with
  | some e => simp [delete, h, hd]
  | none =>
    cases hs : st.slot <;> simp [delete, h, hd, hs]

/-- `del obj['x']`: a property whose name is an identifier is deleted, also if it is required, and the deleter, that might
raise, is not called. -/
theorem C320_item_violated (p : Prp ε ι) (ht : p.translated = false) (st : St ε ι) (s : Slot ι) (hs : st.slot = some s) :
    deleteItem p st = (.ok (), { st with slot := none }) := by
  simp [deleteItem, ht, hs]

theorem C320_item_partial (p : Prp ε ι) (ht : p.translated = true) (st : St ε ι) : deleteItem p st = delete p st := by
  simp [deleteItem, ht]

/-! ### An example: integers, of which the setter refuses the negative ones -/

/-- A property with integers; the text `k` is a template for what the environment holds. -/
def sample (l : Bool) : Prp Int (List Int) where
  conv := fun e v => match v with
    | .int i => .ok (.int i)
    | .str ['k'] => .ok (.int e)
    | _ => .error .invalidValue
  inputs := fun e v => if v = .str ['k'] then [e] else []
  empty := []
  tpl := fun v => v = .str ['k']
  lazy := l
  setter := fun w => match w with
    | .int (.negSucc _) => some .valueError
    | _ => none
  required := true

theorem sample_regular (l : Bool) : Regular (sample l) where
  inputs := by
    intro e v w h ht
    simp only [sample] at h ht ⊢
    have hv : v ≠ .str ['k'] := by simpa using ht
    rw [if_neg hv]
    split at h
    · cases h; rfl
    · exact absurd rfl hv
    · cases h
  value := by
    intro e v w h ht hw
    simp only [sample] at h ht
    have hv : v = .str ['k'] := by simpa using ht
    subst hv
    subst hw
    cases h

def start : St Int (List Int) := { env := 7, slot := some ⟨.int 1, .int 1, []⟩ }

example : Settled (sample false) 7 ⟨.int 1, .int 1, []⟩ := ⟨by simp, by decide⟩
example : (run (sample false) start [.assign (.int 2), .read, .assign (.bool true), .read, .assign (.int (-3)), .assign (.str ['k']), .read]).told
    = [.int 2, .int (-3), .int 7] := by decide +kernel
example : (run (sample false) start [.assign (.str ['k']), .change 8, .read, .read]).told = [.int 7, .int 8] := by
  decide +kernel
example : (run (sample true) start [.assign (.int 2), .assign (.int 3), .read]).told = [.int 3] := by decide +kernel
example : (assign (sample false) (.int (-3)) start).1 = .error .valueError
    ∧ (read (sample false) (assign (sample false) (.int (-3)) start).2).1 = .ok (.int (-3)) := by decide +kernel
example : (read (sample true) (assign (sample true) (.int (-3)) start).2).1 = .error .valueError := by decide +kernel
/-- A setter that raises AttributeError for all values. -/
def refusing : Prp Int (List Int) := { sample true with setter := fun _ => some .attributeError }

theorem refusing_regular : Regular refusing := ⟨(sample_regular true).inputs, (sample_regular true).value⟩

example : (read refusing (assign refusing (.int 5) start).2).1 = .error .attributeError
    ∧ (readAttr refusing (assign refusing (.int 5) start).2).1 = .ok (.int 5) := by decide +kernel
example : ¬ Settled (sample true) 7 ⟨.int (-3), .none, []⟩ := fun h => nomatch h.1 rfl
example : (read (sample false) (assign (sample false) (.bool true) start).2).1 = .ok (.int 1) := by decide +kernel
example : (read (sample false) (assign (sample false) (.bool false) start).2).1 = .error .invalidValue := by decide +kernel
example : delete (sample false) start = (.error .attributeError, start)
    ∧ (deleteItem (sample false) start).2.slot = none := by decide +kernel

end Verif.Setters
