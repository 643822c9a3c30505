import Verif.Lemmas.Array
/-
C70, C71, C114: array instances.
-/
namespace Verif.Arr
open Spec

/-- Integers, and texts holding one digit; anything else is refused. -/
def exConv : Val → Res Val
  | .int n => .ok (.int n)
  | .str ['4'] => .ok (.int 4)
  | .str ['7'] => .ok (.int 7)
  | _ => .error .conversionError

def exCfg (lz : Bool) : Cfg :=
  { conv := fun _ => exConv, prim := fun _ => true, tpl := fun v => decide (v = .str ['7']), lazy := lz,
    okItem := fun _ => none, okSelf := fun _ => none }

theorem exConv_idem : Idempotent exConv := by
  intro x y h
  unfold exConv at h
  split at h <;> cases h <;> rfl

/-- C70, lengths: after any history whatever (eager or not, conversions and checks failing or not, any item numbers),
the three lists have the same length, which is that of a Python list under the same operations. -/
theorem C70_aligned (cfg : Cfg) (data : List Val) (s : Arr) (h : create cfg data = .ok s) (ops : List Op) :
    (run cfg ops s).validated.length = (run cfg ops s).data.length ∧
    (run cfg ops s).inputs.length = (run cfg ops s).data.length ∧
    (run cfg ops s).data.length = (Spec.run data ops).length := by
  obtain ⟨ha, hl⟩ := create_len h
  have := run_len cfg ops s data ha hl.symm
  exact ⟨this.1.1, this.1.2, this.2.symm⟩

/-- A history with an insertion before the start, one past the end, refused ones, deletions. -/
example : ∃ s, create (exCfg false) [.str ['4'], .int 1, .str ['7']] = .ok s ∧
    (run (exCfg false) [.ins (-1) (.int 5), .ins 40 (.int 6), .set 1 (.str ['x']), .del (-2), .del 12, .get 0, .app (.str ['4'])] s).data.length = 5 := by
  refine ⟨_, rfl, ?_⟩
  decide +kernel

/-- C70, values (partial: one item type, eager, and the values assigned by `arr[i] = v` are of the item type; nothing
is asked of inserted values): after any history, each converted item, when present, is the conversion of the raw item
at the same place of a Python list under the same operations, and reading any item gives that conversion or its
exception. -/
theorem C70_converted_partial (cfg : Cfg) (c : Val → Res Val) (hu : Uniform cfg c) (hid : Idempotent c)
    (hl : cfg.lazy = false) (data : List Val) (s : Arr) (h : create cfg data = .ok s) (ops : List Op)
    (hg : GoodSets c ops) :
    (∀ (k : Nat) (v r : Val), (run cfg ops s).validated[k]? = some v → v ≠ .none → (Spec.run data ops)[k]? = some r →
      c r = .ok v) ∧
    ∀ i, (getitem cfg i (run cfg ops s)).1 = Spec.read c (Spec.run data ops) i := by
  have hr := run_rel hu hid hl ops (create_rel hu hid h) hg
  refine ⟨?_, fun i => (getitem_rel hu hid hr i).1⟩
  intro k v r hv hne hraw
  obtain ⟨T, hT1, hT2, hT⟩ := hr
  rw [hT2] at hv
  rw [hT1] at hraw
  simp only [arrOf, List.getElem?_map] at hv hraw
  cases ht : T[k]? with
  | none => rw [ht] at hv; cases hv
  | some t =>
    rw [ht] at hv hraw
    cases hv; cases hraw
    rcases hT t (List.mem_of_getElem? ht) with ⟨h1, _⟩ | ⟨h1, _⟩
    · exact absurd h1 hne
    · exact h1

example : Uniform (exCfg false) exConv ∧ Idempotent exConv ∧ (exCfg false).lazy = false ∧
    GoodSets exConv [.ins (-1) (.int 5), .set 1 (.str ['4']), .ins 0 (.str ['x']), .del (-1), .get 2] ∧
    ∃ s, create (exCfg false) [.str ['4'], .int 1, .str ['7']] = .ok s ∧
      Spec.run [.str ['4'], .int 1, .str ['7']]
        [.ins (-1) (.int 5), .set 1 (.str ['4']), .ins 0 (.str ['x']), .del (-1), .get 2]
        = [.str ['x'], .str ['4'], .str ['4'], .int 5] ∧
      (run (exCfg false) [.ins (-1) (.int 5), .set 1 (.str ['4']), .ins 0 (.str ['x']), .del (-1), .get 2] s).validated
        = [.none, .int 4, .int 4, .none] := by
  refine ⟨fun _ _ => rfl, exConv_idem, rfl, ?_, _, rfl, ?_, ?_⟩
  · intro i v hm
    simp at hm
    obtain ⟨_, rfl⟩ := hm
    exact ⟨_, rfl⟩
  · decide +kernel
  · decide +kernel

/-- The claim about values as stated, for eager arrays. -/
def ValuesClaim : Prop :=
  ∀ (cfg : Cfg) (data : List Val) (s : Arr) (ops : List Op), cfg.lazy = false → create cfg data = .ok s →
    ∀ (k : Nat) (v r : Val), (run cfg ops s).validated[k]? = some v → v ≠ .none → (run cfg ops s).data[k]? = some r →
      cfg.conv k r = .ok v

/-- C70 is violated by a refused assignment: `arr[i] = v` with a value that is not of the item type raises after having
replaced the raw item, and the old conversion stays. -/
theorem C70_refused_violated : ¬ ValuesClaim := by
  intro h
  have := h (exCfg false) [.int 1] _ [.set 0 (.str ['x'])] rfl rfl 0 (.int 1) (.str ['x']) (by decide +kernel)
    (by decide +kernel) (by decide +kernel)
  revert this
  decide +kernel

/-- The first item is a number, the others are kept as texts of one letter. -/
def exTuple : Cfg :=
  { exCfg false with
    conv := fun i v => if i = 0 then exConv v else match v with
      | .str s => .ok (.str s)
      | _ => .error .conversionError }

/-- C70 is violated too when the items have their own types: an insertion or deletion shifts the items, and the
conversions made with the former type stay. No operation fails here. -/
theorem C70_types_violated :
    ¬ ∀ (cfg : Cfg) (data : List Val) (s : Arr) (i : Int), cfg.lazy = false → create cfg data = .ok s →
      (delitem cfg i s).1 = .ok () →
      ∀ (k : Nat) (v r : Val), (delitem cfg i s).2.validated[k]? = some v → v ≠ .none →
        (delitem cfg i s).2.data[k]? = some r → cfg.conv k r = .ok v := by
  intro h
  have := h exTuple [.int 1, .str ['4']] _ 0 rfl rfl (by decide +kernel) 0 (.str ['4']) (.str ['4'])
    (by decide +kernel) (by decide +kernel) (by decide +kernel)
  revert this
  decide +kernel

/-- C71 as stated. -/
def LazyClaim : Prop :=
  ∀ (cfg : Cfg) (s : Arr) (i : Int) (v w : Val), cfg.lazy = true → Aligned s → inside s.data.length i →
    cfg.conv i v = .ok w → (getitem cfg i (setitem cfg i v s).2).1 = .ok w

/-- C71 is violated once the item has been read: the read leaves its conversion, the assignment does not remove it,
and later reads give it. Here `arr = [1]`, `arr[0]`, `arr[0] = 4`, `arr[0]`. -/
theorem C71_lazy_violated : ¬ LazyClaim := by
  intro h
  have := h (exCfg true) (run (exCfg true) [.get 0] (touch { data := [.int 1], validated := [], inputs := [] })) 0 (.int 4) (.int 4)
    rfl (by decide +kernel) (by decide +kernel) rfl
  revert this
  decide +kernel

theorem inside_norm {n : Nat} {i : Int} (h : inside n i) : norm n i = some (place n i).toNat := by
  rw [norm_inside, if_pos h]

/-- C71, what holds: the assignment is read back if the item had not been read (or its conversion was None); if it had,
the old conversion is read. -/
theorem C71_lazy_partial (cfg : Cfg) (s : Arr) (i : Int) (v : Val) (hl : cfg.lazy = true) (ha : Aligned s)
    (hi : inside s.data.length i) :
    (setitem cfg i v s).1 = .ok () ∧
    (getitem cfg i (setitem cfg i v s).2).1 =
      (match s.validated[(place s.data.length i).toNat]? with
       | some .none => cfg.conv i v
       | some u => .ok u
       | none => .error .indexError) := by
  have hn := inside_norm hi
  have hk := norm_lt hn
  have hnv : norm s.validated.length i = some (place s.data.length i).toNat := by rw [ha.1]; exact hn
  have hni : norm s.inputs.length i = some (place s.data.length i).toNat := by rw [ha.2]; exact hn
  have hs : setitem cfg i v s = (.ok (), { s with data := s.data.set (place s.data.length i).toNat v }) := by
    simp only [setitem, setAt_some v hn, hl, if_true]
  have hkv : (place s.data.length i).toNat < s.validated.length := by rw [ha.1]; exact hk
  rw [hs]
  refine ⟨rfl, ?_⟩
  simp only [getitem, getAt_some hnv, List.getElem?_eq_getElem hkv]
  have hnd : norm (s.data.set (place s.data.length i).toNat v).length i = some (place s.data.length i).toNat := by
    simpa using hn
  have hev : (evaluate cfg i { s with data := s.data.set (place s.data.length i).toNat v }) =
      match cfg.conv i v with
      | .error e => (.error e, { s with data := s.data.set (place s.data.length i).toNat v,
                                        inputs := s.inputs.set (place s.data.length i).toNat () })
      | .ok w => setValidated cfg i w { s with data := s.data.set (place s.data.length i).toNat v,
                                               inputs := s.inputs.set (place s.data.length i).toNat () } := by
    simp only [evaluate, setAt_some () hni, getAt_some hnd, List.getElem_set_self]
    all_goals (cases cfg.conv i v <;> rfl)
  have hsv : ∀ w, ∃ d, setValidated cfg i w (Arr.mk (s.data.set (place s.data.length i).toNat v) s.validated
        (s.inputs.set (place s.data.length i).toNat ()))
      = (.ok (), { data := d, validated := s.validated.set (place s.data.length i).toNat w,
                   inputs := s.inputs.set (place s.data.length i).toNat () }) := by
    intro w
    simp only [setValidated, getAt_some hnd, setAt_some w hnd, setAt_some w hnv]
    split
    · rename_i heq; split at heq <;> cases heq
    · exact ⟨_, rfl⟩
  rw [hev]
  cases hu : s.validated[(place s.data.length i).toNat] with
  | none =>
    simp only
    cases cfg.conv i v with
    | error e => rfl
    | ok w =>
      obtain ⟨d, hd⟩ := hsv w
      simp only [hd]
      rw [getAt_some (k := (place s.data.length i).toNat) (by simpa using hnv)]
      simp
  | _ => rfl

example : ∃ s, create (exCfg true) [.int 1, .str ['4']] = .ok s ∧ Aligned s ∧ inside s.data.length (-1) ∧
    (getitem (exCfg true) (-1) (setitem (exCfg true) (-1) (.str ['7']) s).2).1 = .ok (.int 7) ∧
    (getitem (exCfg true) (-1) (setitem (exCfg true) (-1) (.str ['7']) (getitem (exCfg true) (-1) s).2).2).1
      = .ok (.int 4) := by
  refine ⟨_, rfl, by decide +kernel, by decide +kernel, by decide +kernel, by decide +kernel⟩

/-- In eager mode an assignment of a value of the item type is read back. -/
theorem C71_eager (cfg : Cfg) (c : Val → Res Val) (hu : Uniform cfg c) (hid : Idempotent c) (hl : cfg.lazy = false)
    (data : List Val) (s : Arr) (h : create cfg data = .ok s) (ops : List Op) (hg : GoodSets c ops) (i : Int)
    (v w : Val) (hv : c v = .ok w) (hi : inside (Spec.run data ops).length i) :
    (getitem cfg i (setitem cfg i v (run cfg ops s)).2).1 = .ok w := by
  have hr := run_rel hu hid hl ops (create_rel hu hid h) hg
  have h2 := setitem_rel hu hid hl hr i v ⟨w, hv⟩
  rw [(getitem_rel hu hid h2 i).1]
  have hp : (place (Spec.run data ops).length i).toNat < (Spec.run data ops).length := by
    have := hi.1; have := hi.2; omega
  have hs : Spec.step (Spec.run data ops) (.set i v)
      = (Spec.run data ops).set (place (Spec.run data ops).length i).toNat v := by
    simp only [Spec.step, hi, if_true]
  rw [hs]
  simp only [Spec.read, List.length_set, hi, if_true, List.getElem?_set_self hp, hv]

/-- C114 as expected: appending a value of the item type succeeds. -/
def AppendClaim : Prop :=
  ∀ (cfg : Cfg) (c : Val → Res Val) (s : Arr) (v w : Val), Uniform cfg c → Idempotent c → Aligned s →
    (∀ x, cfg.okItem x = none) → c v = .ok w → (append cfg v s).1 = .ok ()

/-- C114 is violated: the appended value, and not the array, is checked against the schema of the array, and a number
is not an array. -/
theorem C114_append_violated : ¬ AppendClaim := by
  intro h
  have := h (exCfg false) exConv (touch { data := [], validated := [], inputs := [] }) (.int 4) (.int 4)
    (fun _ _ => rfl) exConv_idem (by decide +kernel) (fun _ => rfl) rfl
  revert this
  decide +kernel

/-- C114, what happens exactly: the value of the item type is appended and reads back converted in all cases, and the
call raises InvalidValue unless the value is itself a list or a text. -/
theorem C114_append_partial (cfg : Cfg) (c : Val → Res Val) (hu : Uniform cfg c) (hid : Idempotent c)
    (hl : cfg.lazy = false) (hok : ∀ x, cfg.okItem x = none) (data : List Val) (s : Arr)
    (h : create cfg data = .ok s) (ops : List Op) (hg : GoodSets c ops) (v w : Val) (hv : c v = .ok w) :
    (append cfg v (run cfg ops s)).1 = (if sequence v then .ok () else .error .invalidValue) ∧
    (∀ i, (getitem cfg i (append cfg v (run cfg ops s)).2).1 = Spec.read c (Spec.run data ops ++ [v]) i) ∧
    (append cfg v (run cfg ops s)).2.validated.getLast? = some w := by
  have hr := run_rel hu hid hl ops (create_rel hu hid h) hg
  have hlen : (Spec.run data ops).length = (run cfg ops s).data.length := by
    obtain ⟨T, hT1, hT2, _⟩ := hr; rw [hT1, hT2]; simp [arrOf]
  have h2 := insert_rel (cfg := cfg) hu hid hr (Spec.run data ops).length v
  rw [app_ins, hlen] at h2
  refine ⟨?_, fun i => (getitem_rel hu hid h2 i).1, ?_⟩
  all_goals
    obtain ⟨T, hT1, hT2, hT⟩ := hr
    have hn : clamp T.length (T.length : Int) = T.length := by unfold clamp; split <;> omega
    have hs : (Arr.mk (insertAt (arrOf T).data (T.length : Int) v) (insertAt (arrOf T).validated (T.length : Int) .none)
        (insertAt (arrOf T).inputs (T.length : Int) ())) = arrOf (T ++ [(v, v, .none)]) := by
      simp [arrOf, insertAt, hn, ← List.map_take, ← List.map_drop]
    have hT' : ∀ t ∈ T ++ [((v, v, .none) : Row)], Good c t := by
      intro t ht
      rcases List.mem_append.1 ht with ht | ht
      · exact hT t ht
      · simp at ht; subst ht; exact Or.inl ⟨rfl, rfl⟩
    have hk : norm (T ++ [((v, v, .none) : Row)]).length (T.length : Int) = some T.length := by
      unfold norm
      simp
      omega
    have hlt : T.length < (T ++ [((v, v, .none) : Row)]).length := by simp
    have hdl : (run cfg ops s).data.length = T.length := by rw [hT2]; simp [arrOf]
    simp only [append, insert, hdl]
    rw [hT2, hs]
    rcases evaluate_arrOf (cfg := cfg) hu hid _ hT' hk hlt with ⟨e, hc, he⟩ | ⟨w', d, hw, hd, he⟩
    · simp [hv] at hc
    · rw [he]
      simp [hv] at hw
      subst hw
      simp only [hl, checkItem, hok]
      by_cases hq : sequence v = true <;> simp [hq, arrOf]

example : ∃ s, create (exCfg false) [.str ['4']] = .ok s ∧
    append (exCfg false) (.int 5) s =
      (.error .invalidValue, { data := [.int 4, .int 5], validated := [.int 4, .int 5], inputs := [(), ()] }) ∧
    (append (exCfg false) (.str ['4']) s).1 = .ok () := by
  refine ⟨_, rfl, by decide +kernel, by decide +kernel⟩

end Verif.Arr
