import Verif.Spec.Defining
import Verif.Lemmas.Builder
/-
About class statements.
-/
namespace Verif.Defining
open Verif.Builder

theorem fresh_makeWith {cfg : Cfg} {f} (h : Good f) {i sch pre rs s k c s'}
    (hk : ∀ c1 s1 c2 s2, k c1 s1 = some (.ok c2, s2) → c2 = c1)
    (hx : makeWith cfg f i sch pre rs s k = some (.ok c, s')) : ∃ n, c = .made i n ∧ s.next ≤ n := by
  unfold makeWith at hx
  cases hr : reqs f rs s with
  | none => simp [hr] at hx
  | some y =>
    obtain ⟨o, s1⟩ := y
    obtain ⟨⟨m, hm⟩, _⟩ := good_reqs h _ _ _ _ hr
    rw [hr] at hx
    cases o with
    | error e => simp at hx
    | ok cs =>
      simp only [make] at hx
      cases hrest : cfg.rest i sch (pre ++ cs) with
      | some e => simp [hrest] at hx
      | none =>
        rw [hrest] at hx
        exact ⟨s1.next, hk _ _ _ _ hx, hm.next⟩

theorem finish_cls {i c1 s1 c2 s2} (h : finish i c1 s1 = some (.ok c2, s2)) : c2 = c1 := by
  unfold finish at h
  simp only [Option.some.injEq, Prod.mk.injEq, Except.ok.injEq] at h
  exact h.1.symm

/-- A request with a schema that has a type makes a class of its own. -/
theorem fresh_construct {cfg : Cfg} {f} (h : Good f) {i sch s c s'} (ht : sch.typed = true)
    (hx : construct cfg f i sch s = some (.ok c, s')) : ∃ n, c = .made i n ∧ s.next ≤ n := by
  unfold construct at hx
  cases hro : refOf sch with
  | none =>
    rw [hro] at hx
    exact fresh_makeWith h (fun _ _ _ _ => finish_cls) hx
  | some r =>
    rw [hro] at hx
    simp only at hx
    cases hf : f (.load (Uri.scope r i)) s with
    | none => simp [hf] at hx
    | some y =>
      obtain ⟨o1, s1⟩ := y
      obtain ⟨⟨l, hl⟩, ho⟩ := h _ _ _ _ hf
      rw [hf] at hx
      cases o1 with
      | error e => simp at hx
      | ok c1 =>
        simp only at hx
        split at hx
        · obtain ⟨n, h1, h2⟩ := fresh_makeWith h (fun _ _ _ _ => finish_cls) hx
          exact ⟨n, h1, Nat.le_trans hl.next h2⟩
        · rename_i hs
          exfalso
          cases sch with
          | bool b => cases ht
          | node type =>
            cases type with
            | none => cases ht
            | some t => simp [hasSiblings] at hs

theorem forget_get? (i j : Id) (s : St) :
    AList.get? (forget i s).registry j = if j = i then none else AList.get? s.registry j := by
  unfold forget
  split
  · exact AList.get?_erase _ _ _
  · rename_i h
    split
    · rename_i hj
      subst hj
      rw [AList.get?_eq_none]
      intro hm
      exact h (AList.contains_iff.2 hm)
    · rfl

theorem forget_onC (i : Id) (s : St) : (forget i s).onC = s.onC := by unfold forget; split <;> rfl
theorem forget_next (i : Id) (s : St) : (forget i s).next = s.next := by unfold forget; split <;> rfl
theorem forget_log (i : Id) (s : St) : (forget i s).log = s.log := by unfold forget; split <;> rfl

theorem typed_key (d : Kw) : "type".toList ∈ AList.keys (typed d) := by
  unfold typed
  split
  · rename_i h; exact AList.contains_iff.1 h
  · rw [← AList.get?_isSome, AList.get?_set_self]; rfl

theorem typed_get? (d : Kw) {k : Str} (h : "type".toList ≠ k) : AList.get? (typed d) k = AList.get? d k := by
  unfold typed
  split
  · rfl
  · exact AList.get?_set_ne _ _ h

theorem typed_eq {d : Kw} : typed d = d ↔ "type".toList ∈ AList.keys d := by
  constructor
  · intro h; rw [← h]; exact typed_key d
  · intro h; unfold typed; rw [if_pos (AList.contains_iff.2 h)]

theorem texts_map (l : List Str) : texts (l.map fun i => .str i) = l := by
  induction l with
  | nil => rfl
  | cons a l ih => simp [texts, ih]

theorem parents_eq (bs : List (Option Str)) : (bs.filterMap fun b => b) = parents bs := by
  induction bs with
  | nil => rfl
  | cons b bs ih => cases b <;> simp [parents, ih]

theorem names_typed (d : Kw) : names (typed d) = names d := by
  unfold names
  rw [typed_get? d (by decide +kernel)]

theorem names_extended (bs : List (Option Str)) (d : Kw) : names (extended bs d) = parents bs := by
  unfold names extended
  rw [AList.get?_set_self]
  simp only [texts_map, parents_eq]

theorem under_ident {c : Stmt} {i : Id} (h : Under c i) : i = ident c := by
  unfold ident
  rcases h with ⟨h, hne⟩ | ⟨h | h, hi⟩
  · rw [h]
    cases i with
    | nil => exact absurd rfl hne
    | cons => rfl
  · rw [h]; exact hi
  · rw [h]; exact hi

/-- A schema in the body. -/
theorem prepare_body {docs : AList Id Val} {c : Stmt} {d : Kw} (h : FromBody c d) :
    prepare docs c = (.ok (typed (if c.bases.isEmpty then d else extended c.bases d)), docs,
      some (typed (if c.bases.isEmpty then d else extended c.bases d))) := by
  obtain ⟨h1, h2⟩ := h
  unfold prepare
  have : empty (some d) = false := by
    cases d with
    | nil => exact absurd rfl h2
    | cons => rfl
  simp [h1, this]

/-- A schema by its identifier. -/
theorem prepare_doc {docs : AList Id Val} {c : Stmt} {i : Id} {d : Kw} (h : FromDoc docs c i d) :
    ident c = i ∧ prepare docs c = (.ok (typed d), AList.set docs i (.dict (typed d)), c.own) := by
  obtain ⟨h1, h2, h3, h4⟩ := h
  have he : empty c.own = true := by rcases h1 with h1 | h1 <;> rw [h1] <;> rfl
  cases i with
  | nil => exact absurd rfl h3
  | cons ch i =>
    have hi : ident c = ch :: i := by unfold ident; rw [h2]
    have hn : named c = true := by unfold named; rw [h2]
    refine ⟨hi, ?_⟩
    unfold prepare
    simp [he, hn, hi, h4]

/-- The schema handed on has a type. -/
theorem prepare_typed {docs : AList Id Val} {c : Stmt} {d docs' own'} (h : prepare docs c = (.ok d, docs', own')) :
    "type".toList ∈ AList.keys d := by
  unfold prepare at h
  split at h
  · split at h <;> simp only [Prod.mk.injEq, Except.ok.injEq, reduceCtorEq, false_and] at h
    rw [← h.1]; exact typed_key _
  · simp only [Prod.mk.injEq, Except.ok.injEq] at h
    rw [← h.1]; exact typed_key _

end Verif.Defining
