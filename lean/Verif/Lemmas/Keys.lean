import Verif.Lemmas.Types
import Verif.Spec.Keys
/-
Lemmas about foreign keys.
-/
namespace Verif.Keys
open Spec

theorem isInfix_iff (s : Str) : (t : Str) → (Query.isInfix s t = true ↔ s <:+: t)
  | [] => by
    simp [Query.isInfix]
  | c :: t => by
    rw [Query.isInfix, Bool.or_eq_true, List.isPrefixOf_iff_prefix, isInfix_iff s t]
    constructor
    · rintro (h | h)
      · exact h.isInfix
      · exact h.trans (List.infix_cons (List.infix_refl t))
    · rintro ⟨a, b, h⟩
      cases a with
      | nil => exact Or.inl ⟨b, h⟩
      | cons x a =>
        simp only [List.cons_append, List.cons.injEq] at h
        exact Or.inr ⟨a, b, h.2⟩

theorem isExpr_literal (v : Val) (h : Literal v) : isExpr v = false := by
  cases v <;> try rfl
  rename_i s
  obtain ⟨h1, h2, h3⟩ := h
  simp only [isExpr, Bool.or_eq_false_iff]
  refine ⟨⟨?_, ?_⟩, ?_⟩
  · simpa using h1
  · rw [Bool.eq_false_iff, ne_eq, isInfix_iff]; exact h2
  · rw [Bool.eq_false_iff, ne_eq, isInfix_iff]; exact h3

theorem map_literal (ev : Val → Val) (l : List Val) (h : ∀ v ∈ l, Literal v) : l.map (evalItem ev) = l := by
  induction l with
  | nil => rfl
  | cons v l ih =>
    rw [List.map_cons, ih fun w hw => h w (List.mem_cons_of_mem _ hw), evalItem,
      isExpr_literal v (h v List.mem_cons_self)]
    rfl

theorem zipConv_iff : (ts : List (Val → Res Val)) → (vs ws : List Val) → ts.length = vs.length →
    (zipConv ts vs = .ok ws ↔ Conv ts vs ws)
  | [], [], ws, _ => by
    show Except.ok [] = Except.ok ws ↔ _
    constructor
    · intro h; cases h; exact .nil
    · intro h; cases h; rfl
  | t :: ts, v :: vs, ws, h => by
    have ih := fun ws => zipConv_iff ts vs ws (by simpa using h)
    rw [zipConv]
    constructor
    · intro hz
      cases ht : t v with
      | error e => rw [ht] at hz; cases hz
      | ok w =>
        rw [ht] at hz
        cases hr : zipConv ts vs with
        | error e => rw [hr] at hz; cases hz
        | ok ws' =>
          rw [hr] at hz
          cases hz
          exact .cons ht ((ih ws').1 hr)
    · intro hc
      cases hc with
      | cons ht hr => rw [ht, (ih _).2 hr]
  | [], _ :: _, _, h => by simp at h
  | _ :: _, [], _, h => by simp at h

theorem conv_length {ts : List (Val → Res Val)} {vs ws : List Val} (h : Conv ts vs ws) :
    ts.length = vs.length ∧ ws.length = vs.length := by
  induction h with
  | nil => exact ⟨rfl, rfl⟩
  | cons _ _ ih => simp [ih.1, ih.2]

theorem pack_iff (r : Res (List Val)) (v : Val) : pack r = .ok v ↔ ∃ ws, r = .ok ws ∧ v = .list ws := by
  cases r with
  | error e => simp [pack]
  | ok ws => simp [pack, eq_comm]

theorem apply_iff (ts : List (Val → Res Val)) (vs : List Val) (v : Val) (h : ts.length = vs.length) :
    apply ts vs = .ok v ↔ ∃ ws, Conv ts vs ws ∧ Key ws v := by
  have many : ts.length ≠ 1 → (pack (zipConv ts vs) = .ok v ↔ ∃ ws, Conv ts vs ws ∧ Key ws v) := by
    intro hn
    rw [pack_iff]
    constructor
    · rintro ⟨ws, hw, rfl⟩
      have hc := (zipConv_iff ts vs ws h).1 hw
      have := conv_length hc
      exact ⟨ws, hc, .many ws (by omega)⟩
    · rintro ⟨ws, hc, hk⟩
      refine ⟨ws, (zipConv_iff ts vs ws h).2 hc, ?_⟩
      have := conv_length hc
      cases hk with
      | one => simp at this; omega
      | many => rfl
  match ts, vs, h with
  | [], [], _ => exact many (by simp)
  | [t], [x], _ =>
    show t x = .ok v ↔ _
    constructor
    · intro ht; exact ⟨[v], .cons ht .nil, .one v⟩
    · rintro ⟨ws, hc, hk⟩
      cases hc with
      | cons ht hr =>
        cases hr
        cases hk with
        | one => exact ht
        | many _ hn => exact absurd rfl hn
  | t :: u :: ts, x :: vs, h => exact many (by simp)

theorem attrs_iff (e : Entity) : (ns : List Str) → (vs : List Val) → (attrs e ns = .ok vs ↔ Has e ns vs)
  | [], vs => by
    rw [attrs]
    constructor
    · intro h; cases h; exact .nil
    · intro h; cases h; rfl
  | n :: ns, vs => by
    have ih := attrs_iff e ns
    rw [attrs]
    constructor
    · intro h
      cases hn : e.attr n with
      | error x => rw [hn] at h; cases h
      | ok v =>
        rw [hn] at h
        cases hr : attrs e ns with
        | error x => rw [hr] at h; cases h
        | ok ws => rw [hr] at h; cases h; exact .cons hn ((ih ws).1 hr)
    · intro h
      cases h with
      | cons hn hr => rw [hn, (ih _).2 hr]

theorem has_length {e : Entity} {ns : List Str} {vs : List Val} (h : Has e ns vs) : ns.length = vs.length := by
  induction h with
  | nil => rfl
  | cons _ _ ih => simp [ih]

theorem items_list (ev : Val → Val) (split : Bool) (l : List Val) (h : ∀ v ∈ l, Literal v) :
    items ev split (.list l) = .ok l := by
  have : Types.arrDeserializeOr {} split true (.list l) = .ok l := by
    unfold Types.arrDeserializeOr
    cases l with
    | nil => rfl
    | cons v l => simp [Val.truthy, Types.arrDeserialize]
  rw [items, this]
  simp only [map_literal ev l h]

theorem items_text (ev : Val → Val) (s : Str) (hs : s ≠ [])
    (h : ∀ w ∈ splitOn ',' s, Literal (.str (strip isSpace w))) :
    items ev true (.str s) = .ok ((splitOn ',' s).map fun w => .str (strip isSpace w)) := by
  have : Types.arrDeserializeOr {} true true (.str s) = .ok ((splitOn ',' s).map fun w => .str (strip isSpace w)) := by
    unfold Types.arrDeserializeOr
    rw [if_pos (by simp [Val.truthy, hs])]
    simp [Types.arrDeserialize, Types.splitSep_char]
  rw [items, this]
  simp only
  rw [map_literal]
  intro v hv
  obtain ⟨w, hw, rfl⟩ := List.mem_map.1 hv
  exact h w hw

/-- What becomes a tuple of one item. -/
theorem items_one (ev : Val → Val) (v : Val) (ht : v.truthy = true) (hl : ∀ l, v ≠ .list l) (h : Literal v) :
    items ev false v = .ok [v] := by
  have : Types.arrDeserializeOr {} false true v = .ok [v] := by
    unfold Types.arrDeserializeOr
    rw [if_pos ht]
    cases v <;> first | exact absurd rfl (hl _) | simp [Types.arrDeserialize]
  rw [items, this]
  simp only [map_literal ev [v] (by simpa using h)]

theorem items_false (ev : Val → Val) (split : Bool) (v : Val) (ht : v.truthy = false) : items ev split v = .ok [] := by
  have : Types.arrDeserializeOr {} split true v = .ok [] := by
    unfold Types.arrDeserializeOr
    rw [if_neg (by simp [ht])]
    rfl
  rw [items, this]
  rfl

theorem strip_id (s : Str) (hh : ∀ c, s.head? = some c → isSpace c = false)
    (hl : ∀ c, s.getLast? = some c → isSpace c = false) : strip isSpace s = s := by
  have drop : ∀ t : Str, (∀ c, t.head? = some c → isSpace c = false) → lstrip isSpace t = t := by
    intro t ht
    cases t with
    | nil => rfl
    | cons c t => simp [lstrip, ht c rfl]
  unfold strip
  rw [drop s hh, drop s.reverse (by simpa using hl), List.reverse_reverse]

end Verif.Keys
