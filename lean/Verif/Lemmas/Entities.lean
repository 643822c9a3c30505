import Verif.Spec.Entities
/-
Lemmas on contexts of objects and on the serialisation of nested objects.
-/
namespace Verif.Entities

/-! ### Contexts -/

theorem setContext_length (w : World) (o : Nat) (ctx : List M) : (setContext w o ctx).length = w.length := by
  rw [setContext]; split <;> simp

/-- Nothing but the object itself changes. -/
theorem setContext_other (w : World) (o : Nat) (ctx : List M) {q : Nat} (h : q ≠ o) :
    (setContext w o ctx)[q]? = w[q]? := by
  rw [setContext]; split
  · rfl
  · rw [List.getElem?_set_ne (Ne.symm h)]

theorem setContext_self (w : World) (o : Nat) (ctx : List M) (h : o < w.length) :
    ∃ x, (setContext w o ctx)[o]? = some x ∧ x.ctx = ctx ∧ x.parent = firstObj (fun _ => true) o ctx
      ∧ x.parentInst = firstObj (instOf w) o ctx := by
  rw [setContext]
  have hx : w[o]? = some w[o] := List.getElem?_eq_getElem h
  rw [hx]
  exact ⟨_, by rw [List.getElem?_set_self h], rfl, rfl, rfl⟩

/-- The state of the objects when nothing was inserted into a lazily loaded array. -/
structure Inv (w : World) (l : List (Option Nat)) : Prop where
  length : w.length = l.length
  own : ∀ o, l[o]? = some none → ctxOf w o = createContext o defaultCtx ∧ parentOf w o = none
  below : ∀ o p, l[o]? = some (some p) → p < o ∧ ctxOf w o = createContext o (ctxOf w p) ∧ parentOf w o = some p

theorem Inv.ctx {w : World} {l : List (Option Nat)} (i : Inv w l) {o : Nat} (h : o < w.length) :
    ∃ outer, ctxOf w o = createContext o outer := by
  have hl : o < l.length := i.length ▸ h
  cases hb : l[o] with
  | none => exact ⟨_, (i.own o (by rw [List.getElem?_eq_getElem hl, hb])).1⟩
  | some p => exact ⟨_, (i.below o p (by rw [List.getElem?_eq_getElem hl, hb])).2.1⟩

theorem ctxOf_create {w : World} {outer : List M} {inst : Bool} {n : Nat} :
    ctxOf (create w outer inst n) w.length = createContext w.length outer := by
  obtain ⟨x, hx, hc, _⟩ := setContext_self (w ++ [{ entries := n, inst }]) w.length (createContext w.length outer)
    (by simp)
  rw [ctxOf, create, hx]; exact hc

theorem parentOf_create {w : World} {outer : List M} {inst : Bool} {n : Nat} :
    parentOf (create w outer inst n) w.length = firstObj (fun _ => true) w.length outer := by
  obtain ⟨x, hx, _, hp, _⟩ := setContext_self (w ++ [{ entries := n, inst }]) w.length (createContext w.length outer)
    (by simp)
  rw [parentOf, create, hx]
  show x.parent = _
  rw [hp]
  simp [createContext, firstObj]

theorem create_length (w : World) (outer : List M) (inst : Bool) (n : Nat) :
    (create w outer inst n).length = w.length + 1 := by
  rw [create, setContext_length]; simp

theorem create_old {w : World} {outer : List M} {inst : Bool} {n q : Nat} (h : q < w.length) :
    (create w outer inst n)[q]? = w[q]? := by
  rw [create, setContext_other _ _ _ (by omega), List.getElem?_append_left h]

/-- An object made in a context keeps the state. -/
theorem Inv.create {w : World} {l : List (Option Nat)} (i : Inv w l) (b : Option Nat) (outer : List M)
    (hb : (b = none ∧ outer = defaultCtx) ∨ ∃ p, b = some p ∧ p < w.length ∧ outer = ctxOf w p)
    (inst : Bool) (n : Nat) : Inv (create w outer inst n) (l ++ [b]) := by
  have old : ∀ {q : Nat}, q < w.length → ctxOf (Entities.create w outer inst n) q = ctxOf w q
      ∧ parentOf (Entities.create w outer inst n) q = parentOf w q := by
    intro q hq
    constructor <;> simp only [ctxOf, parentOf, create_old hq]
  have hlast : ∀ {o : Nat} {v : Option Nat}, (l ++ [b])[o]? = some v → (o < w.length ∧ l[o]? = some v) ∨
      (o = w.length ∧ b = v) := by
    intro o v h
    rcases Nat.lt_or_ge o l.length with hl | hl
    · rw [List.getElem?_append_left hl] at h
      exact .inl ⟨i.length ▸ hl, h⟩
    · rw [List.getElem?_append_right hl] at h
      have h0 : o - l.length = 0 := by
        rcases Nat.eq_zero_or_pos (o - l.length) with h0 | h0
        · exact h0
        · rw [List.getElem?_eq_none (by simp; omega)] at h; cases h
      rw [h0] at h
      have : b = v := by simpa using h
      exact .inr ⟨by have := i.length; omega, this⟩
  refine ⟨by rw [create_length, List.length_append, i.length]; rfl, ?_, ?_⟩
  · intro o h
    rcases hlast h with ⟨ho, h⟩ | ⟨rfl, rfl⟩
    · rw [(old ho).1, (old ho).2]; exact i.own o h
    · rcases hb with ⟨_, rfl⟩ | ⟨p, h, _⟩
      · exact ⟨ctxOf_create, by rw [parentOf_create]; rfl⟩
      · cases h
  · intro o p h
    rcases hlast h with ⟨ho, h⟩ | ⟨rfl, rfl⟩
    · obtain ⟨h1, h2, h3⟩ := i.below o p h
      exact ⟨h1, by rw [(old ho).1, (old (by omega)).1]; exact h2, by rw [(old ho).2]; exact h3⟩
    · rcases hb with ⟨h, _⟩ | ⟨q, h, hq, rfl⟩
      · cases h
      · cases h
        refine ⟨hq, by rw [ctxOf_create, (old hq).1], ?_⟩
        rw [parentOf_create]
        obtain ⟨outer, ho⟩ := i.ctx hq
        rw [ho]
        have : (p != w.length) = true := by simp; omega
        simp [createContext, firstObj, this]

theorem resize_ctx (w : World) (o n q : Nat) :
    ctxOf (step w (.resize o n)) q = ctxOf w q ∧ parentOf (step w (.resize o n)) q = parentOf w q
      ∧ (step w (.resize o n)).length = w.length := by
  simp only [step]
  cases h : w[o]? with
  | none => exact ⟨rfl, rfl, rfl⟩
  | some x =>
    have ho : o < w.length := by
      rcases Nat.lt_or_ge o w.length with h' | h'
      · exact h'
      · rw [List.getElem?_eq_none h'] at h; cases h
    by_cases hq : q = o
    · subst hq
      refine ⟨?_, ?_, by simp⟩ <;> simp only [ctxOf, parentOf, List.getElem?_set_self ho, h] <;> rfl
    · refine ⟨?_, ?_, by simp⟩ <;> simp only [ctxOf, parentOf, List.getElem?_set_ne (Ne.symm hq)]

/-- The state after a history without insertions. -/
theorem run_inv : (ops : List Op) → NoInsert ops → (w : World) → (l : List (Option Nat)) → Inv w l →
    Inv (run w ops) (builtIn ops l)
  | [], _, _, _, i => i
  | op :: ops, h, w, l, i => by
    have h' : NoInsert ops := fun x hx => h x (List.mem_cons_of_mem _ hx)
    cases op with
    | make inst n => exact run_inv ops h' _ _ (i.create none defaultCtx (.inl ⟨rfl, rfl⟩) inst n)
    | build p inst n =>
      show Inv (run (if p < w.length then create w (ctxOf w p) inst n else w) ops)
        (builtIn ops (if p < l.length then l ++ [some p] else l))
      by_cases hp : p < w.length
      · rw [if_pos hp, if_pos (i.length ▸ hp)]
        exact run_inv ops h' _ _ (i.create (some p) _ (.inr ⟨p, rfl, hp, rfl⟩) inst n)
      · rw [if_neg hp, if_neg (i.length ▸ hp)]
        exact run_inv ops h' _ _ i
    | assign p o => exact run_inv ops h' _ _ i
    | insert p o => exact absurd rfl (h _ List.mem_cons_self p o)
    | resize o n =>
      refine run_inv ops h' _ _ ⟨by rw [(resize_ctx w o n 0).2.2]; exact i.length, fun q hq => ?_, fun q p hq => ?_⟩
      · rw [(resize_ctx w o n q).1, (resize_ctx w o n q).2.1]; exact i.own q hq
      · rw [(resize_ctx w o n q).1, (resize_ctx w o n p).1, (resize_ctx w o n q).2.1]; exact i.below q p hq

theorem inv_nil : Inv [] [] :=
  ⟨rfl, fun o h => by simp at h, fun o p h => by simp at h⟩

/-- The maps of a context belong to objects that were there before. -/
theorem Inv.maps {w : World} {l : List (Option Nat)} (i : Inv w l) (o : Nat) (ho : o < w.length) {q : Nat}
    (h : .data q ∈ ctxOf w o) : q ≤ o := by
  induction o using Nat.strongRecOn with
  | _ o ih =>
    have hl : o < l.length := i.length ▸ ho
    cases hb : l[o] with
    | none =>
      rw [(i.own o (by rw [List.getElem?_eq_getElem hl, hb])).1] at h
      simp [createContext, defaultCtx] at h
      omega
    | some p =>
      obtain ⟨hp, hc, _⟩ := i.below o p (by rw [List.getElem?_eq_getElem hl, hb])
      rw [hc] at h
      rcases (by simpa [createContext] using h : q = o ∨ M.data q ∈ ctxOf w p) with rfl | h
      · exact Nat.le_refl _
      · have := ih p hp (by omega) h
        omega

/-- Every object has an outermost one. -/
theorem Inv.top {w : World} {l : List (Option Nat)} (i : Inv w l) (o : Nat) (ho : o < w.length) :
    ∃ r, Top (parentOf w) o r := by
  induction o using Nat.strongRecOn with
  | _ o ih =>
    have hl : o < l.length := i.length ▸ ho
    cases hb : l[o] with
    | none => exact ⟨o, .top (i.own o (by rw [List.getElem?_eq_getElem hl, hb])).2⟩
    | some p =>
      obtain ⟨hp, _, hpar⟩ := i.below o p (by rw [List.getElem?_eq_getElem hl, hb])
      obtain ⟨r, hr⟩ := ih p hp (by omega)
      exact ⟨r, .up hpar hr⟩

theorem Top.unique {par : Nat → Option Nat} {o r s : Nat} (h : Top par o r) (h' : Top par o s) : r = s := by
  induction h with
  | top h => cases h' with
    | top => rfl
    | up h2 => rw [h] at h2; cases h2
  | up h _ ih => cases h' with
    | top h2 => rw [h] at h2; cases h2
    | up h2 t => rw [h] at h2; cases h2; exact ih t

/-! ### Serialisation -/

theorem outName_nil (k : Str) (n : Node) : outName [] k n = k := by simp [outName]

/-- An included name is written with what its value is written as. -/
theorem serFields_get {ex only req : List Str} {o : Opts} (hp : o.pre = []) : {fs : List (Str × Node)} →
    {d : List (Str × Out)} → serFields ex only req o fs = .ok d → {k : Str} → {n : Node} → AList.get? fs k = some n →
    included ex only k n = true → ∃ x, ser false o n = .ok x ∧ AList.get? d k = some x
  | [], _, _, _, _, h, _ => by cases h
  | (k', n') :: fs, d, hd, k, n, hk, hi => by
    rw [serFields] at hd
    rw [AList.get?] at hk
    by_cases e : k' = k
    · subst e
      rw [if_pos rfl] at hk
      cases hk
      rw [if_pos hi] at hd
      cases hx : ser false o n' with
      | error e => rw [hx] at hd; cases hd
      | ok x =>
        rw [hx] at hd
        cases hf : serFields ex only req o fs with
        | error e => rw [hf] at hd; cases hd
        | ok d' =>
          rw [hf] at hd
          cases hd
          exact ⟨x, rfl, by rw [hp, outName_nil]; simp [AList.get?]⟩
    · rw [if_neg e] at hk
      cases hf : serFields ex only req o fs with
      | error e =>
        rw [hf] at hd
        split at hd
        · split at hd <;> cases hd
        · cases hd
      | ok d' =>
        obtain ⟨x, hx, hg⟩ := serFields_get hp hf hk hi
        refine ⟨x, hx, ?_⟩
        rw [hf] at hd
        split at hd
        · split at hd
          · cases hd
          · cases hd
            rw [hp, outName_nil, AList.get?, if_neg e]; exact hg
        · cases hd
          split
          · rw [hp, outName_nil, AList.get?, if_neg e]; exact hg
          · exact hg

/-- An item is written as its value is. -/
theorem serItems_get {o : Opts} : {l : List Node} → {d : List Out} → serItems o l = .ok d → {i : Nat} → {n : Node} →
    l[i]? = some n → ∃ x, ser false o n = .ok x ∧ d[i]? = some x
  | [], _, _, _, _, h => by simp at h
  | n' :: l, d, hd, i, n, hi => by
    rw [serItems] at hd
    cases hx : ser false o n' with
    | error e => rw [hx] at hd; cases hd
    | ok x =>
      rw [hx] at hd
      cases hf : serItems o l with
      | error e => rw [hf] at hd; cases hd
      | ok d' =>
        rw [hf] at hd
        cases hd
        cases i with
        | zero => cases hi; exact ⟨x, hx, rfl⟩
        | succ i => exact serItems_get hf hi

theorem isNone_false {n : Node} : n.isNone = false ↔ n ≠ .prim .none := by
  cases n with
  | prim v => cases v <;> simp [Node.isNone]
  | obj c fs => simp [Node.isNone]
  | arr l => simp [Node.isNone]

theorem included_of {ex : List Str} {k : Str} {n : Node} (hn : n ≠ .prim .none) (he : k ∉ ex) :
    included ex [] k n = true := by simp [included, isNone_false.2 hn, he]

theorem rawOut_asIs (n : Node) : AsIs n (rawOut n) := by
  cases n <;> constructor

/-- What is at a place that is not hidden is written there. -/
theorem ser_way {refs : Bool} {ex ex' : List Str} {root root' : Bool} {n m : Node} {p : List Step}
    (w : Way refs ex root n p ex' root' m) : ∀ (o : Opts) (inst : Bool) (x : Out), o.excludes = ex → o.root = root →
    o.only = [] → o.pre = [] → o.addIds = false → (refs = false → o.ids = false ∧ o.ents = false) →
    ser inst o n = .ok x →
    ∃ y, x.at? p = some y ∧ ser (if p = [] then inst else false) { o with excludes := ex', root := root' } m = .ok y := by
  induction w with
  | here =>
    intro o inst x he hr _ _ _ _ hx
    subst he hr
    exact ⟨x, by simp [Out.at?], by simpa using hx⟩
  | @name ex ex' root root' c fs k n m p hk hn hc he hr w ih =>
    intro o inst x heq hre ho hp ha href hx
    have hfull : ¬ ((c.entity && !o.root && o.ids) = true) ∧ ¬ ((c.entity && !o.root && o.ents) = true) := by
      rcases hr with hr | hr | hr
      · simp [href hr]
      · simp [hr]
      · simp [hre, hr]
    rw [ser, if_neg hfull.1, if_neg hfull.2] at hx
    cases hf : serFields (c.notSer ++ o.excludes) o.only c.required (o.inner c) fs with
    | error e => rw [hf] at hx; cases hx
    | ok d =>
      rw [hf] at hx
      have hx : Out.dict d = x := by simpa [ha] using hx
      subst hx
      obtain ⟨y, hy, hg⟩ := serFields_get (o := o.inner c) (by simpa [Opts.inner] using hp) hf hk
        (by rw [ho]; exact included_of hn (by simp [hc, heq, he]))
      obtain ⟨z, hz, hz'⟩ := ih (o.inner c) false y (by simp [Opts.inner, heq]) (by simp [Opts.inner, hre])
        (by simp [Opts.inner]) (by simpa [Opts.inner] using hp) (by simpa [Opts.inner] using ha)
        (by simpa [Opts.inner] using href) hy
      refine ⟨z, by simp [Out.at?, Out.step, hg, hz], ?_⟩
      have h1 : { o.inner c with excludes := ex', root := root' } = { o with excludes := ex', root := root' } := by
        cases o
        simp only [Opts.inner]
        congr
        exact ho.symm
      rw [h1] at hz'
      simpa using hz'
  | @item ex ex' root root' l i n m p hi w ih =>
    intro o inst x heq hre ho hp ha href hx
    rw [ser] at hx
    cases hf : serItems o l with
    | error e => rw [hf] at hx; cases hx
    | ok d =>
      rw [hf] at hx
      cases hx
      obtain ⟨y, hy, hg⟩ := serItems_get hf hi
      obtain ⟨z, hz, hz'⟩ := ih o false y heq hre ho hp ha href hy
      exact ⟨z, by simp [Out.at?, Out.step, hg, hz], by simpa using hz'⟩

mutual
/-- Without `use_entity_keys` everything can be written. -/
theorem ser_total (o : Opts) (h : o.ents = false ∨ o.ids = true) (inst : Bool) : (n : Node) → ∃ x, ser inst o n = .ok x
  | .prim v => ⟨_, rfl⟩
  | .arr l => by
    obtain ⟨d, hd⟩ := serItems_total o h l
    exact ⟨.list d, by rw [ser, hd]⟩
  | .obj c fs => by
    rw [ser]
    split
    · exact ⟨_, rfl⟩
    · next h1 =>
      rw [if_neg]
      · obtain ⟨d, hd⟩ := serFields_total (c.notSer ++ o.excludes) o.only c.required (o.inner c) (by simpa [Opts.inner] using h) fs
        rw [hd]; exact ⟨_, rfl⟩
      · intro h2
        simp only [Bool.and_eq_true] at h1 h2
        rcases h with h | h
        · rw [h] at h2; exact absurd h2.2 (by simp)
        · exact h1 ⟨h2.1, h⟩
theorem serFields_total (ex only req : List Str) (o : Opts) (h : o.ents = false ∨ o.ids = true) :
    (fs : List (Str × Node)) → ∃ d, serFields ex only req o fs = .ok d
  | [] => ⟨_, rfl⟩
  | (k, n) :: fs => by
    obtain ⟨x, hx⟩ := ser_total o h false n
    obtain ⟨d, hd⟩ := serFields_total ex only req o h fs
    rw [serFields, hx, hd]
    split <;> exact ⟨_, rfl⟩
theorem serItems_total (o : Opts) (h : o.ents = false ∨ o.ids = true) : (l : List Node) → ∃ d, serItems o l = .ok d
  | [] => ⟨_, rfl⟩
  | n :: l => by
    obtain ⟨x, hx⟩ := ser_total o h false n
    obtain ⟨d, hd⟩ := serItems_total o h l
    exact ⟨x :: d, by rw [serItems, hx, hd]⟩
end

/-- What is written under a name is the value of that name, if it is included, or None for a required one. -/
theorem serFields_from {ex only req : List Str} {o : Opts} (hp : o.pre = []) : {fs : List (Str × Node)} →
    AList.WF fs → {d : List (Str × Out)} → serFields ex only req o fs = .ok d → {k : Str} → {x : Out} →
    AList.get? d k = some x →
    ∃ n, AList.get? fs k = some n ∧
      ((included ex only k n = true ∧ ser false o n = .ok x) ∨ (included ex only k n = false ∧ k ∈ req ∧ x = .val .none))
  | [], _, d, hd, k, x, hk => by
    rw [serFields] at hd; cases hd; cases hk
  | (k', n') :: fs, wf, d, hd, k, x, hk => by
    have wf' : AList.WF fs := (List.nodup_cons.1 wf).2
    rw [serFields] at hd
    by_cases hi : included ex only k' n' = true
    · rw [if_pos hi] at hd
      cases hx : ser false o n' with
      | error e => rw [hx] at hd; cases hd
      | ok y =>
        rw [hx] at hd
        cases hf : serFields ex only req o fs with
        | error e => rw [hf] at hd; cases hd
        | ok d' =>
          rw [hf] at hd
          cases hd
          rw [hp, outName_nil, AList.get?] at hk
          by_cases e : k' = k
          · subst e
            rw [if_pos rfl] at hk
            cases hk
            exact ⟨n', by simp [AList.get?], .inl ⟨hi, hx⟩⟩
          · rw [if_neg e] at hk
            rw [AList.get?, if_neg e]
            exact serFields_from hp wf' hf hk
    · rw [if_neg hi] at hd
      cases hf : serFields ex only req o fs with
      | error e => rw [hf] at hd; cases hd
      | ok d' =>
        rw [hf] at hd
        cases hd
        by_cases hr : k' ∈ req
        · rw [if_pos hr, hp, outName_nil, AList.get?] at hk
          by_cases e : k' = k
          · subst e
            rw [if_pos rfl] at hk
            cases hk
            exact ⟨n', by simp [AList.get?], .inr ⟨by simpa using hi, hr, rfl⟩⟩
          · rw [if_neg e] at hk
            rw [AList.get?, if_neg e]
            exact serFields_from hp wf' hf hk
        · rw [if_neg hr] at hk
          obtain ⟨n, hn, hh⟩ := serFields_from hp wf' hf hk
          have e : k' ≠ k := by
            rintro rfl
            exact (List.nodup_cons.1 wf).1 (AList.get?_isSome .. |>.1 (by rw [hn]; rfl))
          exact ⟨n, by rw [AList.get?, if_neg e]; exact hn, hh⟩

theorem serItems_from {o : Opts} : {l : List Node} → {d : List Out} → serItems o l = .ok d → {i : Nat} → {x : Out} →
    d[i]? = some x → ∃ n, l[i]? = some n ∧ ser false o n = .ok x
  | [], d, hd, i, x, h => by rw [serItems] at hd; cases hd; simp at h
  | n' :: l, d, hd, i, x, hi => by
    rw [serItems] at hd
    cases hx : ser false o n' with
    | error e => rw [hx] at hd; cases hd
    | ok y =>
      rw [hx] at hd
      cases hf : serItems o l with
      | error e => rw [hf] at hd; cases hd
      | ok d' =>
        rw [hf] at hd
        cases hd
        cases i with
        | zero => cases hi; exact ⟨n', rfl, hx⟩
        | succ i => exact serItems_from hf hi

end Verif.Entities
