import Verif.Spec.XmlWriter
/-
C350-C351: the options of writing XML.
-/
namespace Verif.XmlWriter
open Xml Spec

theorem special_iff (k : Str) : (k = "#text".toList ∨ k = "#tail".toList ∨ k.head? = some '@') ↔ isChildKey k = false := by
  unfold isChildKey
  rw [show "#text".toList = kText from rfl, show "#tail".toList = kTail from rfl]
  by_cases h1 : k = kText <;> by_cases h2 : k = kTail <;> by_cases h3 : k.head? = some '@' <;> simp [h1, h2, h3]

theorem bind_map {α β γ : Type} (f : β → γ) (r : Res α) (g : α → Res β) :
    Except.map f (r >>= g) = r >>= fun a => Except.map f (g a) := by
  cases r <;> rfl

/-- What an element is written as, apart from its children, depends on its texts and attributes, and on whether it has
children if the text is set out. -/
theorem wrap_congr (c : Cfg) (depth : Nat) (key : Str) (d d' : Dict) (r : Res (List Event))
    (h1 : AList.get? d kText = AList.get? d' kText) (h2 : AList.get? d kTail = AList.get? d' kTail)
    (h3 : attrsOf c.str d [] = attrsOf c.str d' [])
    (h4 : c.pretty = false ∨ d.any (fun p => isChildKey p.1) = d'.any (fun p => isChildKey p.1)) :
    wrap c depth key d r = wrap c depth key d' r := by
  unfold wrap
  rw [h1, h2, h3]
  rcases h4 with h4 | h4
  · simp [ws, h4]
  · rw [h4]

theorem wrap_renamed (c : Cfg) (names : Str → Option Str) (depth : Nat) (key : Str) (d : Dict) (r : Res (List Event)) :
    Except.map (List.map (renamed names)) (wrap c depth key d r)
      = wrap c depth ((names key).getD key) d (Except.map (List.map (renamed names)) r) := by
  have hch : ∀ (o : Option Val) t, charsOf o = .ok t → t.map (renamed names) = t := by
    intro o t h
    unfold charsOf at h
    split at h
    · cases h; rfl
    · cases h; rfl
    · split at h
      · split at h
        · cases h; rfl
        · cases h
      · cases h; rfl
  have hws : ∀ s, (ws c s).map (renamed names) = ws c s := by
    intro s; unfold ws; split <;> rfl
  unfold wrap
  cases ht : charsOf (AList.get? d kText) with
  | error e => rfl
  | ok t =>
    cases r with
    | error e => rfl
    | ok k =>
      cases ht' : charsOf (AList.get? d kTail) with
      | error e => rfl
      | ok t' =>
        simp only [bind, Except.bind, pure, Except.pure, Except.map, Except.ok.injEq, List.map_append, hws, hch _ _ ht, hch _ _ ht',
          List.map_cons, List.map_nil, renamed]
        have hif : ∀ (b : Bool) (x : List Event), x.map (renamed names) = x →
            (if b = true then x else []).map (renamed names) = if b = true then x else [] := by
          intro b x hx; cases b <;> simp [hx]
        have hif' : ∀ (p : Prop) [Decidable p] (x : List Event), x.map (renamed names) = x →
            (if p then [] else x).map (renamed names) = if p then [] else x := by
          intro p _ x hx; split <;> simp [hx]
        rw [hif _ _ (hws _), hif _ _ (hws _), hif' _ _ (hws _)]

theorem get?_pruneD (names : Str → Option Str) (d : Dict) (k : Str) (hk : isChildKey k = false) :
    AList.get? (pruneD names d) k = AList.get? d k := by
  induction d with
  | nil => rfl
  | cons p d ih =>
    obtain ⟨k', v⟩ := p
    rw [pruneD]
    by_cases h : k' = k
    · subst h
      rw [if_pos ((special_iff _).mpr hk)]
      simp [AList.get?]
    · split
      · simp only [AList.get?, h, if_false]; exact ih
      · split
        · simp only [AList.get?, h, if_false]; exact ih
        · simp only [AList.get?, h, if_false]; exact ih

theorem attrsOf_pruneD (str : Val → Str) (names : Str → Option Str) (d : Dict) (acc : AList Str Str) :
    attrsOf str (pruneD names d) acc = attrsOf str d acc := by
  induction d generalizing acc with
  | nil => rfl
  | cons p d ih =>
    obtain ⟨k, v⟩ := p
    rw [pruneD]
    by_cases hat : k.head? = some '@'
    · rw [if_pos (.inr (.inr hat))]
      cases k with
      | nil => simp at hat
      | cons c k =>
        simp at hat
        subst hat
        simp only [attrsOf]
        exact ih _
    · have hne : ∀ (v : Val) (d : Dict) acc, attrsOf str ((k, v) :: d) acc = attrsOf str d acc := by
        intro v d acc
        cases k with
        | nil => rfl
        | cons c k =>
          simp at hat
          rw [attrsOf]
          intro n v' h
          simp at h
          exact hat h.1.1
      rw [hne]
      split
      · rw [hne]; exact ih _
      · split
        · exact ih _
        · rw [hne]; exact ih _

theorem any_pruneD (names : Str → Option Str) (h : ∀ k, names k ≠ none) (d : Dict) :
    (pruneD names d).any (fun p => isChildKey p.1) = d.any (fun p => isChildKey p.1) := by
  induction d with
  | nil => rfl
  | cons p d ih =>
    obtain ⟨k, v⟩ := p
    rw [pruneD, if_neg (h k)]
    split <;> simp [ih]

theorem wrap_pruneD (c : Cfg) (names : Str → Option Str) (h : c.pretty = false ∨ ∀ k, names k ≠ none) (depth : Nat) (key : Str)
    (d : Dict) (r : Res (List Event)) : wrap c depth key (pruneD names d) r = wrap c depth key d r := by
  apply wrap_congr
  · exact get?_pruneD _ _ _ (by decide +kernel)
  · exact get?_pruneD _ _ _ (by decide +kernel)
  · exact attrsOf_pruneD _ _ _ _
  · rcases h with h | h
    · exact .inl h
    · exact .inr (any_pruneD names h d)

theorem map_append (f : Event → Event) (a b : Res (List Event)) :
    Except.map (List.map f) (a >>= fun x => b >>= fun y => pure (x ++ y))
      = (Except.map (List.map f) a >>= fun x => Except.map (List.map f) b >>= fun y => pure (x ++ y)) := by
  cases a <;> cases b <;> simp [bind, Except.bind, Except.map, pure, Except.pure]

mutual
theorem emit_names (c : Cfg) (names : Str → Option Str) (h : c.pretty = false ∨ ∀ k, names k ≠ none) (full : Bool) (depth : Nat)
    (key : Str) : (v : Val) → emit ⟨c, names, []⟩ full depth key v
      = if names key = none then .ok []
        else Except.map (List.map (renamed names)) (Xml.emit c full depth key (prune names v))
  | .list l => by
    rw [emit, prune, Xml.emit]
    dsimp only
    cases hk : names key with
    | none => rfl
    | some k => simp only [hk, reduceCtorEq, if_false]; exact emitItems_names c names h full depth key k hk 0 l
  | .dict d => by
    rw [emit, prune, Xml.emit, wrap_renamed, wrap_pruneD c names h]
    dsimp only
    cases hk : names key with
    | none => rfl
    | some k =>
      simp only [hk, reduceCtorEq, if_false, Option.getD_some]
      rw [emitChildren_names c names h (depth + 1) d]
  | .none => by
    simp only [emit, prune, Xml.emit, wrap_renamed]
    cases hk : names key <;> rfl
  | .bool b => by
    simp only [emit, prune, Xml.emit, wrap_renamed]
    cases hk : names key <;> rfl
  | .int i => by
    simp only [emit, prune, Xml.emit, wrap_renamed]
    cases hk : names key <;> rfl
  | .str s => by
    simp only [emit, prune, Xml.emit, wrap_renamed]
    cases hk : names key <;> rfl
theorem emitItems_names (c : Cfg) (names : Str → Option Str) (h : c.pretty = false ∨ ∀ k, names k ≠ none) (full : Bool) (depth : Nat)
    (key k : Str) (hk : names key = some k) (i : Nat) : (l : List Val) → emitItems ⟨c, names, []⟩ full depth k i l
      = Except.map (List.map (renamed names)) (Xml.emitItems c full depth key i (pruneL names l))
  | [] => by rw [emitItems, pruneL, Xml.emitItems]; rfl
  | .list r :: l => by
    rw [emitItems, pruneL, Xml.emitItems]
    · split
      · rfl
      · simp only [if_true]
        rw [map_append, wrap_renamed, hk, ← emitItems_names c names h full depth key k hk (i + 1) l]
        rfl
    · intro d hd; cases hd
  | .dict d :: l => by
    rw [emitItems, pruneL, prune, Xml.emitItems]
    · split
      · rfl
      · rw [map_append, wrap_renamed, wrap_pruneD c names h, hk, ← emitItems_names c names h full depth key k hk (i + 1) l,
          ← emitChildren_names c names h (depth + 1) d]
        rfl
    · intro d hd; cases hd
  | .none :: l => by
    simp only [emitItems, pruneL, prune, Xml.emitItems]
    split
    · rfl
    · rw [map_append, wrap_renamed, hk, ← emitItems_names c names h full depth key k hk (i + 1) l]
      rfl
  | .bool b :: l => by
    simp only [emitItems, pruneL, prune, Xml.emitItems]
    split
    · rfl
    · rw [map_append, wrap_renamed, hk, ← emitItems_names c names h full depth key k hk (i + 1) l]
      rfl
  | .int b :: l => by
    simp only [emitItems, pruneL, prune, Xml.emitItems]
    split
    · rfl
    · rw [map_append, wrap_renamed, hk, ← emitItems_names c names h full depth key k hk (i + 1) l]
      rfl
  | .str b :: l => by
    simp only [emitItems, pruneL, prune, Xml.emitItems]
    split
    · rfl
    · rw [map_append, wrap_renamed, hk, ← emitItems_names c names h full depth key k hk (i + 1) l]
      rfl
theorem emitChildren_names (c : Cfg) (names : Str → Option Str) (h : c.pretty = false ∨ ∀ k, names k ≠ none) (depth : Nat) :
    (d : List (Str × Val)) → emitChildren ⟨c, names, []⟩ depth d
      = Except.map (List.map (renamed names)) (Xml.emitChildren c depth (pruneD names d))
  | [] => by rw [emitChildren, pruneD, Xml.emitChildren]; rfl
  | (k, v) :: d => by
    rw [emitChildren, pruneD]
    by_cases hc : isChildKey k = true
    · rw [if_pos hc, if_neg (by rw [special_iff]; simp [hc]), emit_names c names h true depth k v, emitChildren_names c names h depth d]
      by_cases hn : names k = none
      · rw [if_pos hn, if_pos hn]
        cases Xml.emitChildren c depth (pruneD names d) <;> rfl
      · rw [if_neg hn, if_neg hn, Xml.emitChildren, if_pos hc, map_append]
    · rw [if_neg hc, if_pos (by rw [special_iff]; simpa using hc), Xml.emitChildren, if_neg hc]
      exact emitChildren_names c names h depth d
end

theorem unparse_names (c : Cfg) (names : Str → Option Str) (h : c.pretty = false ∨ ∀ k, names k ≠ none) (full : Bool) (d : Dict) :
    emitRoots ⟨c, names, []⟩ full d = Except.map (List.map (renamed names)) (Xml.emitRoots c full (d.filterMap (fun p =>
      if names p.1 = none then none else some (p.1, prune names p.2)))) := by
  induction d with
  | nil => rfl
  | cons p d ih =>
    obtain ⟨k, v⟩ := p
    rw [emitRoots, emit_names c names h, ih]
    by_cases hn : names k = none
    · rw [if_pos hn, List.filterMap_cons_none (by simp [hn])]
      generalize Xml.emitRoots c full _ = r
      cases r <;> rfl
    · rw [if_neg hn, List.filterMap_cons_some (b := (k, prune names v)) (by simp only [hn, if_false]), Xml.emitRoots, map_append]

/-- **C350.** With a preprocessor that gives names other names and refuses some: what is written is what the document
without the refused elements is written as, each tag under its new name. The attributes and texts are those of the document.
This holds of a document of one root that is not refused and of a fragment. It is assumed that the text is not set out, or that
no name is refused. -/
theorem C350_document_with_other_names_partial (c : Cfg) (names : Str → Option Str) (h : c.pretty = false ∨ ∀ k, names k ≠ none) :
    (∀ k v, names k ≠ none → unparse ⟨c, names, []⟩ true [(k, v)]
      = Except.map (List.map (renamed names)) (Xml.unparse c true [(k, prune names v)])) ∧
    (∀ d, unparse ⟨c, names, []⟩ false d = Except.map (List.map (renamed names)) (Xml.unparse c false (d.filterMap (fun p =>
      if names p.1 = none then none else some (p.1, prune names p.2))))) := by
  refine ⟨fun k v hk => ?_, fun d => ?_⟩
  · simp only [unparse, Xml.unparse, List.length_singleton, ne_eq, not_true_eq_false, and_false, if_false]
    rw [unparse_names c names h, List.filterMap_cons_some (b := (k, prune names v)) (by simp only [hk, if_false])]
    rfl
  · simp only [unparse, Xml.unparse, Bool.false_eq_true, false_and, if_false]
    exact unparse_names c names h false d

/-- `secret` is refused, `a` is renamed; the attribute `@a` is not. -/
def exNames : Str → Option Str := fun k =>
  if k = "secret".toList then none else if k = "a".toList then some "b".toList else some k

def exCfg (p : Bool) : Cfg := ⟨p, "\n".toList, "\t".toList, fun _ => "?".toList⟩

example : unparse ⟨exCfg false, exNames, []⟩ true [("a".toList, .dict [("@a".toList, .str "1".toList), ("secret".toList, .dict []),
      ("x".toList, .list [.str "t".toList, .dict [("secret".toList, .none), ("a".toList, .none)]])])]
    = .ok [.start "b".toList [("a".toList, "1".toList)], .start "x".toList [], .chars "t".toList, .stop "x".toList,
        .start "x".toList [], .start "b".toList [], .stop "b".toList, .stop "x".toList, .stop "b".toList] := by decide +kernel

example : (exCfg false).pretty = false ∧ exNames "a".toList ≠ none := by decide +kernel

/-- **C350, violated.** A refused root: the document is written without an error and has no element at all, whatever it holds,
although a document without a root is refused. -/
theorem C350_refused_root_violated (c : Cfg) (names : Str → Option Str) (e k : Str) (v : Val) (h : names k = none) :
    unparse ⟨c, names, e⟩ true [(k, v)] = .ok [] ∧ Xml.unparse c true [] = .error .valueError := by
  refine ⟨?_, rfl⟩
  simp only [unparse, List.length_singleton, ne_eq, not_true_eq_false, and_false, if_false, emitRoots]
  cases v <;> simp only [emit, h] <;> rfl

example : unparse ⟨exCfg false, exNames, []⟩ true [("secret".toList, .dict [("a".toList, .none)])] = .ok [] := by decide +kernel

/-- **C350, violated.** If the text is set out, an element whose only child is refused is not written as an element without
children: the end of line and the indentation that go with the child are written. -/
theorem C350_refused_child_violated (c : Cfg) (names : Str → Option Str) (e r r' k : Str) (v : Val) (hp : c.pretty = true)
    (hr : names r = some r') (hc : isChildKey k = true) (h : names k = none) :
    unparse ⟨c, names, e⟩ true [(r, .dict [(k, v)])]
      = .ok [.chars [], .start r' [], .chars c.newl, .chars [], .stop r'] ∧
    Xml.unparse c true [(r', .dict [])] = .ok [.chars [], .start r' [], .stop r'] := by
  have h1 : (k = kText) = False := by
    simp only [eq_iff_iff, iff_false]; intro hk; subst hk; revert hc; decide +kernel
  have h2 : (k = kTail) = False := by
    simp only [eq_iff_iff, iff_false]; intro hk; subst hk; revert hc; decide +kernel
  have h3 : attrsOf c.str [(k, v)] [] = [] := by
    cases k with
    | nil => rfl
    | cons a k =>
      rw [attrsOf]
      · rfl
      · intro n v' hh
        simp at hh
        rw [hh.1.1] at hc
        simp [isChildKey] at hc
  have h4 : emitChildren ⟨c, names, e⟩ 1 [(k, v)] = .ok [] := by
    rw [emitChildren, if_pos hc]
    cases v <;> simp only [emit, h, emitChildren] <;> rfl
  constructor
  · simp only [unparse, List.length_singleton, ne_eq, not_true_eq_false, and_false, if_false, emitRoots, emit, hr]
    simp only [wrap, h3, h4, List.any_cons, hc, ws, hp, times, AList.get?, h1, h2, if_false, Nat.zero_add]
    rfl
  · simp only [Xml.unparse, List.length_singleton, ne_eq, not_true_eq_false, and_false, if_false, Xml.emitRoots, Xml.emit,
      Xml.emitChildren, wrap, ws, hp, times]
    rfl

example : (exCfg true).pretty = true ∧ exNames "a".toList = some "b".toList ∧ isChildKey "secret".toList = true ∧
    exNames "secret".toList = none := by decide +kernel

/-! ### Lists inside lists -/

theorem get?_expandedD (e : Str) (d : Dict) (k : Str) (hk : isChildKey k = false) :
    AList.get? (expandedD e d) k = AList.get? d k := by
  induction d with
  | nil => rfl
  | cons p d ih =>
    obtain ⟨k', v⟩ := p
    rw [expandedD]
    by_cases h : k' = k
    · subst h
      rw [if_pos ((special_iff _).mpr hk)]
      simp [AList.get?]
    · simp only [AList.get?, h, if_false]; exact ih

theorem attrsOf_expandedD (str : Val → Str) (e : Str) (d : Dict) (acc : AList Str Str) :
    attrsOf str (expandedD e d) acc = attrsOf str d acc := by
  induction d generalizing acc with
  | nil => rfl
  | cons p d ih =>
    obtain ⟨k, v⟩ := p
    rw [expandedD]
    by_cases hat : k.head? = some '@'
    · rw [if_pos (.inr (.inr hat))]
      cases k with
      | nil => simp at hat
      | cons c k =>
        simp at hat
        subst hat
        simp only [attrsOf]
        exact ih _
    · have hne : ∀ (v : Val) (d : Dict) acc, attrsOf str ((k, v) :: d) acc = attrsOf str d acc := by
        intro v d acc
        cases k with
        | nil => rfl
        | cons c k =>
          simp at hat
          rw [attrsOf]
          intro n v' h
          simp at h
          exact hat h.1.1
      rw [hne, hne]
      exact ih _

theorem any_expandedD (e : Str) (d : Dict) : (expandedD e d).any (fun p => isChildKey p.1) = d.any (fun p => isChildKey p.1) := by
  induction d with
  | nil => rfl
  | cons p d ih =>
    obtain ⟨k, v⟩ := p
    rw [expandedD]
    simp [ih]

theorem wrap_expandedD (c : Cfg) (e : Str) (depth : Nat) (key : Str)
    (d : Dict) (r : Res (List Event)) : wrap c depth key (expandedD e d) r = wrap c depth key d r := by
  apply wrap_congr
  · exact get?_expandedD _ _ _ (by decide +kernel)
  · exact get?_expandedD _ _ _ (by decide +kernel)
  · exact attrsOf_expandedD _ _ _ _
  · exact .inr (any_expandedD e d)

theorem wrap_single (c : Cfg) (e : Str) (he : isChildKey e = true) (depth : Nat) (key : Str) (v v' : Val) (r : Res (List Event)) :
    wrap c depth key [(e, v)] r = wrap c depth key [(e, v')] r := by
  have h1 : ¬e = kText := by intro hk; subst hk; revert he; decide +kernel
  have h2 : ¬e = kTail := by intro hk; subst hk; revert he; decide +kernel
  have h3 : ∀ v, attrsOf c.str [(e, v)] [] = [] := by
    intro v
    cases e with
    | nil => rfl
    | cons a k =>
      rw [attrsOf]
      · rfl
      · intro n v' hh
        simp at hh
        rw [hh.1.1] at he
        simp [isChildKey] at he
  apply wrap_congr
  · simp [AList.get?, h1]
  · simp [AList.get?, h2]
  · rw [h3, h3]
  · exact .inr rfl

mutual
theorem emit_expanded (c : Cfg) (names : Str → Option Str) (e : Str) (h0 : e ≠ []) (he : isChildKey e = true) (full : Bool)
    (depth : Nat) (key : Str) : (v : Val) → emit ⟨c, names, e⟩ full depth key v = emit ⟨c, names, []⟩ full depth key (expanded e v)
  | .list l => by
    rw [emit, expanded, emit]
    dsimp only
    cases names key with
    | none => rfl
    | some k => exact emitItems_expanded c names e h0 he full depth k 0 l
  | .dict d => by
    rw [emit, expanded, emit]
    dsimp only
    rw [emitChildren_expanded c names e h0 he (depth + 1) d]
    simp only [wrap_expandedD]
  | .none => by simp only [emit, expanded]
  | .bool b => by simp only [emit, expanded]
  | .int i => by simp only [emit, expanded]
  | .str s => by simp only [emit, expanded]
theorem emitItems_expanded (c : Cfg) (names : Str → Option Str) (e : Str) (h0 : e ≠ []) (he : isChildKey e = true) (full : Bool)
    (depth : Nat) (key : Str) (i : Nat) : (l : List Val) →
    emitItems ⟨c, names, e⟩ full depth key i l = emitItems ⟨c, names, []⟩ full depth key i (expandedL e l)
  | [] => by rw [emitItems, expandedL, emitItems]
  | .list r :: l => by
    rw [emitItems, expandedL, emitItems]
    dsimp only
    rw [if_neg h0, if_pos he, emitItems_expanded c names e h0 he full depth key (i + 1) l,
      wrap_single c e he depth key (.list r) (.list (expandedL e r)), emitChildren, if_pos he, emitChildren,
      emit_expanded c names e h0 he true (depth + 1) e (.list r), expanded]
    have hb : ∀ x : Res (List Event), (x >>= fun a => (Except.ok [] : Res (List Event)) >>= fun b => pure (a ++ b)) = x := by
      intro x; cases x <;> simp [bind, Except.bind, pure, Except.pure]
    rw [hb]
  | .dict d :: l => by
    rw [emitItems, expandedL, expanded, emitItems]
    · rw [emitItems_expanded c names e h0 he full depth key (i + 1) l, emitChildren_expanded c names e h0 he (depth + 1) d,
        wrap_expandedD]
    · intro d hd; cases hd
  | .none :: l => by
    simp only [emitItems, expandedL, expanded]
    rw [emitItems_expanded c names e h0 he full depth key (i + 1) l]
  | .bool b :: l => by
    simp only [emitItems, expandedL, expanded]
    rw [emitItems_expanded c names e h0 he full depth key (i + 1) l]
  | .int b :: l => by
    simp only [emitItems, expandedL, expanded]
    rw [emitItems_expanded c names e h0 he full depth key (i + 1) l]
  | .str b :: l => by
    simp only [emitItems, expandedL, expanded]
    rw [emitItems_expanded c names e h0 he full depth key (i + 1) l]
theorem emitChildren_expanded (c : Cfg) (names : Str → Option Str) (e : Str) (h0 : e ≠ []) (he : isChildKey e = true) (depth : Nat) :
    (d : List (Str × Val)) → emitChildren ⟨c, names, e⟩ depth d = emitChildren ⟨c, names, []⟩ depth (expandedD e d)
  | [] => by rw [emitChildren, expandedD, emitChildren]
  | (k, v) :: d => by
    rw [emitChildren, expandedD, emitChildren]
    by_cases hc : isChildKey k = true
    · rw [if_pos hc, if_pos hc, if_neg (by rw [special_iff]; simp [hc]), emit_expanded c names e h0 he true depth k v,
        emitChildren_expanded c names e h0 he depth d]
    · rw [if_neg hc, if_neg hc]
      exact emitChildren_expanded c names e h0 he depth d
end

/-- **C351.** With `expand_iter`, set out or not, with a preprocessor or not, as a document or as a fragment: what is written is
what is written without it of the document in which each list that is an item of a list, at any depth, is an element that holds
the list under the given name. The name is assumed to be that of an element. -/
theorem C351_lists_inside_lists (c : Cfg) (names : Str → Option Str) (e : Str) (h0 : e ≠ []) (he : e ≠ "#text".toList)
    (he' : e ≠ "#tail".toList) (hat : e.head? ≠ some '@') (full : Bool) (d : Dict) :
    unparse ⟨c, names, e⟩ full d = unparse ⟨c, names, []⟩ full (d.map (fun p => (p.1, expanded e p.2))) := by
  have hc : isChildKey e = true := by
    cases h : isChildKey e with
    | true => rfl
    | false =>
      rcases (special_iff e).mpr h with h | h | h
      · exact absurd h he
      · exact absurd h he'
      · exact absurd h hat
  have hr : ∀ d : Dict, emitRoots ⟨c, names, e⟩ full d = emitRoots ⟨c, names, []⟩ full (d.map (fun p => (p.1, expanded e p.2))) := by
    intro d
    induction d with
    | nil => rfl
    | cons p d ih =>
      obtain ⟨k, v⟩ := p
      rw [List.map_cons, emitRoots, emitRoots, ih, emit_expanded c names e h0 hc]
  simp only [unparse, List.length_map, hr]

example : unparse ⟨exCfg false, exNames, "item".toList⟩ true [("r".toList, .dict [("a".toList, .list [.str "s".toList,
      .list [.list [], .list [.str "t".toList], .none]])])]
    = .ok [.start "r".toList [], .start "b".toList [], .chars "s".toList, .stop "b".toList, .start "b".toList [],
        .start "item".toList [], .stop "item".toList,
        .start "item".toList [], .start "item".toList [], .chars "t".toList, .stop "item".toList, .stop "item".toList,
        .start "item".toList [], .stop "item".toList,
        .stop "b".toList, .stop "r".toList] := by decide +kernel

/-- **C351.** Without `expand_iter` a list that is an item of a list is one element that holds the text of the list. -/
theorem C351_text_of_a_list (c : Cfg) (names : Str → Option Str) (k k' : Str) (r : List Val) (hk : names k = some k')
    (hp : c.pretty = false) : unparse ⟨c, names, []⟩ true [(k, .list [.list r])]
      = .ok ([.start k' []] ++ (if c.str (.list r) = [] then [] else [.chars (c.str (.list r))]) ++ [.stop k']) := by
  simp only [unparse, List.length_singleton, ne_eq, not_true_eq_false, and_false, if_false, emitRoots, emit, hk, emitItems]
  simp only [wrap, leafDict, ws, hp]
  have : charsOf (AList.get? [(kText, Val.str (c.str (.list r)))] kText) = .ok (if c.str (.list r) = [] then [] else [.chars (c.str (.list r))]) := by
    simp only [AList.get?, if_true, charsOf, Val.truthy]
    cases c.str (.list r) <;> simp
  rw [this]
  simp [AList.get?, attrsOf, kText, kTail, isChildKey, charsOf, bind, Except.bind, pure, Except.pure]

example : unparse ⟨exCfg false, exNames, []⟩ true [("a".toList, .list [.list [.int 1]])]
    = .ok [.start "b".toList [], .chars "?".toList, .stop "b".toList] := by decide +kernel

end Verif.XmlWriter
