import Verif.Spec.Given
import Verif.Props.Types
/-
C340, C341: the arguments of a call as the data of an object.
-/
namespace Verif.Given
open Verif.Types

theorem erase_filter (d : Kw) (k : Str) : AList.erase d k = d.filter fun p => p.1 ≠ k := by
  induction d with
  | nil => rfl
  | cons p d ih => grind [AList.erase]

theorem six {x a b c d e f : Str} (h : x ≠ a) :
    (decide (x ≠ f) && (decide (x ≠ e) && (decide (x ≠ d) && (decide (x ≠ c) && decide (x ≠ b))))) =
      decide (x ∉ [a, b, c, d, e, f]) := by
  simp only [← Bool.decide_and]
  congr 1
  simp only [List.mem_cons, List.not_mem_nil, or_false, not_or, eq_iff_iff]
  constructor
  · rintro ⟨h1, h2, h3, h4, h5⟩; exact ⟨h, h5, h4, h3, h2, h1⟩
  · rintro ⟨_, h1, h2, h3, h4, h5⟩; exact ⟨h5, h4, h3, h2, h1⟩

theorem rest_filter (kw : Kw) (h : AList.get? kw "value".toList = none) : rest kw = dataOf kw := by
  have hv := AList.get?_eq_none.1 h
  unfold rest params dataOf
  simp only [List.foldl, erase_filter, List.filter_filter]
  apply List.filter_congr
  intro p hp
  have hne : p.1 ≠ "value".toList := by
    intro he
    exact hv (by rw [← he]; exact List.mem_map_of_mem hp)
  exact six hne

/-! ### C340 -/

/-- **C340** (the part that holds): data given as the first argument are taken as they are, whatever the keywords. -/
theorem C340_value_partial {v : Val} {kw : Kw} (hv : v ≠ .none) (hk : "value".toList ∉ AList.keys kw) :
    ∃ opts, init (some v) kw = .ok (v, opts) := by
  unfold init bind
  rw [AList.get?_eq_none.2 hk]
  simp only [if_neg hv]
  exact ⟨_, rfl⟩

/-- **C340** (the part that holds): without a first argument the keywords are the data, those aside that are parameters,
in their order; all of them if none is a parameter. No keyword is an option then. -/
theorem C340_keywords_partial {kw : Kw} (hk : "value".toList ∉ AList.keys kw) :
    init none kw = .ok (.dict (dataOf kw), []) ∧ ((∀ k ∈ AList.keys kw, k ∉ reserved) → dataOf kw = kw) := by
  constructor
  · unfold init bind
    rw [AList.get?_eq_none.2 hk]
    simp only [if_pos]
    rw [rest_filter _ (AList.get?_eq_none.2 hk)]
  · intro h
    unfold dataOf
    rw [List.filter_eq_self]
    intro p hp
    simpa using h p.1 (List.mem_map_of_mem hp)

def kwEx : Kw := [("name".toList, .str "x".toList), ("size".toList, .int 3)]
def kwEx2 : Kw := kwEx ++ [("items".toList, .list [.int 1])]

example : "value".toList ∉ AList.keys kwEx2 ∧ (∀ k ∈ AList.keys kwEx, k ∉ reserved) ∧
    init none kwEx = .ok (.dict kwEx, []) ∧ init none kwEx2 = .ok (.dict kwEx, []) ∧
    init (some (.dict kwEx2)) [] = .ok (.dict kwEx2, []) := by
  refine ⟨by decide +kernel, by decide +kernel, rfl, rfl, rfl⟩

/-- **C340** is violated: a property named as a parameter, such as `items`, cannot be given by keyword: it is in the
keywords and not in the data. -/
theorem C340_parameter_violated {kw : Kw} {k : Str} (hk : "value".toList ∉ AList.keys kw) (_ : k ∈ AList.keys kw)
    (hr : k ∈ reserved) : ∃ d opts, init none kw = .ok (.dict d, opts) ∧ k ∉ AList.keys d := by
  refine ⟨_, _, (C340_keywords_partial hk).1, ?_⟩
  intro hm
  obtain ⟨p, hp, rfl⟩ := List.mem_map.1 hm
  have := (List.mem_filter.1 hp).2
  simp [hr] at this

/-- **C340** is violated: with a property named `value`, its value is taken for all the data. -/
theorem C340_named_value_violated {kw : Kw} {v : Val} (hv : AList.get? kw "value".toList = some v) (hn : v ≠ .none) :
    ∃ opts, init none kw = .ok (v, opts) := by
  unfold init bind
  rw [hv]
  simp only [if_neg hn]
  exact ⟨_, rfl⟩

example : AList.get? (kwEx ++ [("value".toList, .int 1)]) "value".toList = some (.int 1) ∧
    init none (kwEx ++ [("value".toList, .int 1)]) = .ok (.int 1, kwEx) := ⟨rfl, rfl⟩

/-! ### C341 -/

theorem withContext_get? (new : Val) (opts : Kw) {k : Str} {v : Val} (h : AList.get? opts k = some v) :
    AList.get? (withContext new opts) k = some v := by
  unfold withContext
  split
  · exact h
  · rename_i hc
    rw [AList.get?_set_ne _ _ (by
      rintro rfl
      exact hc (AList.contains_iff.2 (AList.get?_isSome.1 (by rw [h]; rfl))))]
    exact h

theorem withContext_mem (new : Val) (opts : Kw) : "context".toList ∈ AList.keys (withContext new opts) := by
  unfold withContext
  split
  · rename_i h; exact AList.contains_iff.1 h
  · rw [← AList.get?_isSome, AList.get?_set_self]; rfl

theorem withContext_wf {new : Val} {opts : Kw} (h : AList.WF opts) : AList.WF (withContext new opts) := by
  unfold withContext
  split
  · exact h
  · exact AList.wf_set h _ _

/-- **C341** (the part that holds): an object type called on a mapping that is not empty reads just this mapping. -/
theorem C341_value_partial {d : Kw} {kw : Kw} {new : Val} (hd : d ≠ []) (hk : "value".toList ∉ AList.keys kw) :
    ∃ opts, call new (some (.dict d)) kw = .ok (.dict d, opts) := by
  unfold call bind
  rw [AList.get?_eq_none.2 hk]
  cases d with
  | nil => exact absurd rfl hd
  | cons p d => exact ⟨_, rfl⟩

/-- **C341** is violated: called on an empty mapping, it reads its options, and the context, as if they were given as
properties. -/
theorem C341_empty_violated {kw : Kw} {new : Val} (hk : "value".toList ∉ AList.keys kw) :
    ∃ d opts, call new (some (.dict [])) kw = .ok (.dict d, opts) ∧ "context".toList ∈ AList.keys d ∧
      ∀ k v, AList.get? kw k = some v → AList.get? d k = some v := by
  unfold call bind
  rw [AList.get?_eq_none.2 hk]
  exact ⟨withContext new kw, _, rfl, withContext_mem _ _, fun k v h => withContext_get? new kw h⟩

/-- **C341** is violated: an object type that does not know a property `context` refuses the empty mapping, whatever it
declares; one that does gives it the context as value. -/
theorem C341_refused_violated {ord : List Str → List Str} (hord : Reorders ord) {other : List (Str × Val) → Bool}
    {o : ObjDecl} {kw : Kw} {new : Val} (hp : AList.WF o.props) (hr : o.required.Nodup) (hw : AList.WF kw)
    (hk : "value".toList ∉ AList.keys kw) :
    (¬ Known o "context".toList → ∃ e, callType ord other o new (some (.dict [])) kw = .error e) ∧
    (∀ r, callType ord other o new (some (.dict [])) kw = .ok r → "context".toList ∉ AList.keys kw →
      AList.get? r "context".toList = some new) := by
  have hcall : call new (some (.dict [])) kw = .ok (.dict (withContext new kw), withContext new kw) := by
    unfold call bind
    rw [AList.get?_eq_none.2 hk]
    rfl
  unfold callType
  rw [hcall]
  simp only
  have h62 := C62_deserialize_partial ord hord o (withContext new kw) (withContext_wf hw) hp hr
  have hmem := withContext_mem new kw
  have hnew : "context".toList ∉ AList.keys kw → AList.get? (withContext new kw) "context".toList = some new := by
    intro hc
    unfold withContext
    rw [if_neg (fun h => hc (AList.contains_iff.1 h))]
    exact AList.get?_set_self _ _ _
  generalize "context".toList = c at *
  rcases h62 with ⟨h1, _⟩ | ⟨r, h1, _, _, _, h2, _⟩
  · rw [h1]
    exact ⟨fun _ => ⟨_, rfl⟩, fun r hr => by cases hr⟩
  · rw [h1]
    simp only
    have h63 := C63_validate other o r
    obtain ⟨v, hv⟩ := Option.isSome_iff_exists.1 (AList.get?_isSome.2 hmem)
    have hcr := h2 _ _ hv
    constructor
    · intro hn
      refine ⟨_, h63.2 (fun hval => hn (hval.2.1 _ ?_))⟩
      exact AList.get?_isSome.1 (by rw [hcr]; rfl)
    · intro r' hr' hc
      have : r' = r := by
        by_cases hval : ((∀ k ∈ o.required, k ∈ r.map Prod.fst) ∧ (∀ k ∈ r.map Prod.fst, Known o k) ∧ other r = true)
        · rw [h63.1 hval] at hr'
          injection hr' with hr'
          exact hr'.symm
        · rw [h63.2 hval] at hr'; cases hr'
      rw [this]
      exact h2 _ _ (hnew hc)

/-- A type with one property; closed, and open. -/
def closedEx : ObjDecl := ⟨[("name".toList, .none)], fun _ => false, false, [], [], none⟩
def openEx : ObjDecl := ⟨[("name".toList, .none)], fun _ => false, true, [], [], none⟩

example : Reorders id ∧ AList.WF closedEx.props ∧ ¬ Known closedEx "context".toList ∧
    callType id (fun _ => true) closedEx (.str "ctx".toList) (some (.dict [])) [] = .error .invalidValue ∧
    callType id (fun _ => true) openEx (.str "ctx".toList) (some (.dict [])) [("validate".toList, .bool true)] =
      .ok [("validate".toList, .bool true), ("context".toList, .str "ctx".toList), ("name".toList, .none)] ∧
    callType id (fun _ => true) closedEx (.str "ctx".toList) (some (.dict [("name".toList, .none)])) [] =
      .ok [("name".toList, .none)] := by
  refine ⟨fun l => List.Perm.refl l, by unfold AList.WF; decide +kernel, ?_, by decide +kernel, by decide +kernel, by decide +kernel⟩
  unfold Known closedEx
  decide +kernel

end Verif.Given
