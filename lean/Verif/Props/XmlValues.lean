import Verif.Spec.XmlValues
import Verif.Props.Xml
/-
C334: values that are no texts, written to XML. C335: `@xmlns` with the prefixes.
-/
namespace Verif.Xml

theorem textedD_any {str : Val → Str} {d d' : Dict} (h : TextedD str d d') :
    d.any (fun p => isChildKey p.1) = d'.any (fun p => isChildKey p.1) := by
  match h with
  | .nil => rfl
  | .child _ _ t => simp only [List.any_cons, textedD_any t]
  | .attr _ _ t => simp only [List.any_cons, textedD_any t]
  | .same t => simp only [List.any_cons, textedD_any t]

theorem textedD_get {str : Val → Str} {d d' : Dict} (h : TextedD str d d') {k : Str} (hk : k.head? = some '#') :
    AList.get? d k = AList.get? d' k := by
  match h with
  | .nil => rfl
  | @TextedD.child _ k' _ _ _ _ hg _ t =>
    have : k' ≠ k := by rintro rfl; exact hg.2 hk
    simp only [AList.get?, if_neg this, textedD_get t hk]
  | @TextedD.attr _ k' _ _ _ _ _ t =>
    have : '@' :: k' ≠ k := by
      rintro rfl
      simp only [List.head?_cons, Option.some.injEq] at hk
      exact absurd hk (by decide)
    simp only [AList.get?, if_neg this, textedD_get t hk]
  | .same t => simp only [AList.get?, textedD_get t hk]

theorem textedD_attrs {str : Val → Str} {d d' : Dict} (h : TextedD str d d') (acc : AList Str Str) :
    attrsOf str d acc = attrsOf str d' acc := by
  match h with
  | .nil => rfl
  | @TextedD.child _ k' _ _ _ _ hg _ t =>
    cases k' with
    | nil => simp only [attrsOf]; exact textedD_attrs t acc
    | cons a k' =>
      have : a ≠ '@' := by rintro rfl; exact hg.1 rfl
      rw [attrsOf, attrsOf]
      · exact textedD_attrs t acc
      all_goals (intro n w e; cases e; exact this rfl)
  | @TextedD.attr _ k' v _ _ h1 h2 t =>
    simp only [attrsOf]
    rw [textedD_attrs t]
    congr 1
    cases v with
    | str s => exact absurd rfl (h1 s)
    | dict e => exact absurd rfl (h2 e)
    | _ => rfl
  | @TextedD.same _ k' s _ _ t =>
    cases k' with
    | nil => simp only [attrsOf]; exact textedD_attrs t acc
    | cons a k' =>
      by_cases ha : a = '@'
      · subst ha; simp only [attrsOf]; exact textedD_attrs t _
      · rw [attrsOf, attrsOf]
        · exact textedD_attrs t acc
        all_goals (intro n w e; cases e; exact ha rfl)

theorem textedD_wrap {c : Cfg} {d d' : Dict} (h : TextedD c.str d d') (depth : Nat) (key : Str) (r : Res (List Event)) :
    wrap c depth key d r = wrap c depth key d' r := by
  unfold wrap
  rw [textedD_any h, textedD_get h (k := kText) rfl, textedD_get h (k := kTail) rfl, textedD_attrs h]

theorem none_wrap (c : Cfg) (depth : Nat) (key : Str) (r : Res (List Event)) :
    wrap c depth key [] r = wrap c depth key [(kText, .str [])] r := by
  unfold wrap
  rfl

/-- What is written of an item of a list that is no list. -/
def itemEvents (c : Cfg) (depth : Nat) (key : Str) : Val → Res (List Event)
  | .dict d => wrap c depth key d (emitChildren c (depth + 1) d)
  | v => wrap c depth key (leafDict c v) (.ok [])

theorem emitItems_item (c : Cfg) (full : Bool) (depth : Nat) (key : Str) (index : Nat) (v : Val) (l : List Val) :
    emitItems c full depth key index (v :: l) = (do
      if full ∧ depth = 0 ∧ index > 0 then .error .valueError
      else
        let a ← itemEvents c depth key v
        let b ← emitItems c full depth key (index + 1) l
        return a ++ b) := by
  cases v <;> simp only [emitItems, itemEvents]

theorem emit_item (c : Cfg) (full : Bool) (depth : Nat) (key : Str) (v : Val) (hv : ∀ x, v ≠ .list x) :
    emit c full depth key v = itemEvents c depth key v := by
  cases v with
  | list l => exact absurd rfl (hv l)
  | _ => simp only [emit, itemEvents]

theorem texted_notList {str : Val → Str} {v v' : Val} (h : Texted str v v') (hv : ∀ x, v ≠ .list x) (x : List Val) :
    v' ≠ .list x := by
  cases h with
  | list => exact absurd rfl (hv _)
  | _ => simp

mutual
theorem texted_emit {c : Cfg} {v v' : Val} (h : Texted c.str v v') (full : Bool) (depth : Nat) (key : Str) :
    emit c full depth key v = emit c full depth key v' := by
  match h with
  | .none => simp only [emit, leafDict]; exact none_wrap c depth key _
  | .yes => simp only [emit, leafDict]
  | .no => simp only [emit, leafDict]
  | .int n => simp only [emit, leafDict]
  | .str s => rfl
  | .list h => simp only [emit]; exact texted_items h full depth key 0
  | .dict h => simp only [emit]; rw [textedD_wrap h, texted_children h]
theorem texted_items {c : Cfg} {l l' : List Val} (h : TextedL c.str l l') (full : Bool) (depth : Nat) (key : Str)
    (index : Nat) : emitItems c full depth key index l = emitItems c full depth key index l' := by
  match h with
  | .nil => rfl
  | .cons hv h t =>
    rw [emitItems_item, emitItems_item, texted_items t, ← emit_item c full depth key _ hv,
      ← emit_item c full depth key _ (texted_notList h hv), texted_emit h]
theorem texted_children {c : Cfg} {d d' : Dict} (h : TextedD c.str d d') (depth : Nat) :
    emitChildren c depth d = emitChildren c depth d' := by
  match h with
  | .nil => rfl
  | .child hk h t => simp only [emitChildren]; rw [texted_children t, texted_emit h]
  | .attr h1 h2 t => simp only [emitChildren, isChildKey]; simp [texted_children t]
  | .same t => simp only [emitChildren]; rw [texted_children t]
end

/-! ### C334: values are read back as their texts -/

/-- A document with values of any kind is written; read again, it has their texts. -/
theorem C334_texts_partial (c : Cfg) (fl : Str → Bool) (hi : ∀ x ∈ c.indent, isSpace x = true)
    (hl : ∀ x ∈ c.newl, isSpace x = true) (f1 : fl kText = false) (f2 : fl kTail = false) (tag : Str) (v w : Val)
    (ht : GoodName tag) (f3 : fl tag = false) (h : Texted c.str v w) (hw : Canon fl w) :
    ∃ evs, unparse c true [(tag, v)] = .ok evs ∧ parse fl evs = some [(tag, w)] := by
  obtain ⟨evs, h1, h2⟩ := C80_roundtrip c fl hi hl f1 f2 tag w ht hw
  rw [f3] at h1 h2
  refine ⟨evs, ?_, h2⟩
  rw [← h1]
  simp only [unparse, emitRoots, texted_emit h, Bool.false_eq_true, if_false, List.length_singleton]

/-- `str` of numbers, truth values and None. -/
def strPlain : Val → Str
  | .int n => showInt n
  | .bool true => S "True"
  | .bool false => S "False"
  | .none => S "None"
  | _ => S "?"

def plain : Cfg := ⟨false, ['\n'], ['\t'], strPlain⟩

/-- `{'@n': 5, 'a': None, 'b': [True, 7]}` -/
def val2 : Val := .dict [('@' :: S "n", .int 5), (S "a", .none), (S "b", .list [.bool true, .int 7])]

/-- `{'@n': '5', 'a': '', 'b': ['true', '7']}` -/
def val3 : Val := .dict [('@' :: S "n", .str (S "5")), (S "a", .str []), (S "b", .list [.str (S "true"), .str (S "7")])]

theorem canon_val3 : Canon noForce val3 := by
  refine Canon.node [(S "n", S "5")] [(S "a", .str []), (S "b", .list [.str (S "true"), .str (S "7")])] none
    (by simp) (by decide) (by decide) ?_ ?_ (by simp)
  · intro p hp
    simp only [List.mem_cons, List.not_mem_nil, or_false] at hp
    rcases hp with rfl | rfl <;> exact ⟨by decide, by decide⟩
  · intro p hp
    simp only [List.mem_cons, List.not_mem_nil, or_false] at hp
    rcases hp with rfl | rfl
    · exact CanonChild.one _ (Canon.text _ (by unfold Stripped; decide +kernel))
    · refine CanonChild.many false _ (by simp) ?_
      intro w hw
      simp only [List.mem_cons, List.not_mem_nil, or_false] at hw
      rcases hw with rfl | rfl <;> exact Canon.text _ (by unfold Stripped; decide +kernel)

example : Texted plain.str val2 val3 ∧ Canon noForce val3 ∧
    (unparse plain true [(S "r", val2)]).toOption.bind (parse noForce) = some [(S "r", val3)] := by
  refine ⟨?_, canon_val3, by decide +kernel⟩
  refine .dict (.attr (by simp) (by simp) (.child ⟨by decide, by decide⟩ .none
    (.child ⟨by decide, by decide⟩ (.list (.cons (by simp) .yes (.cons (by simp) (.int 7) .nil))) .nil)))

/-- The same value under one name is read back as different texts, if it was an attribute and if it was an element:
`{'@k': True, 'k': True}` is read as `{'@k': 'True', 'k': 'true'}`, and None as `'None'` and `''`. -/
theorem C334_attribute_violated (c : Cfg) (hi : ∀ x ∈ c.indent, isSpace x = true)
    (hl : ∀ x ∈ c.newl, isSpace x = true) (tag k : Str) (ht : GoodName tag) (hk : GoodName k)
    (h1 : c.str (.bool true) = "True".toList) (h2 : c.str .none = "None".toList) :
    (∃ evs, unparse c true [(tag, .dict [('@' :: k, .bool true), (k, .bool true)])] = .ok evs ∧
      parse (fun _ => false) evs =
        some [(tag, .dict [('@' :: k, .str "True".toList), (k, .str "true".toList)])]) ∧
    (∃ evs, unparse c true [(tag, .dict [('@' :: k, .none), (k, .none)])] = .ok evs ∧
      parse (fun _ => false) evs = some [(tag, .dict [('@' :: k, .str "None".toList), (k, .str [])])]) := by
  have canon : ∀ a b : Str, Stripped b → Canon (fun _ => false) (.dict [('@' :: k, .str a), (k, .str b)]) := by
    intro a b hb
    refine Canon.node [(k, a)] [(k, .str b)] none (by simp) (by simp [AList.keys]) (by simp [AList.keys]) ?_ ?_ (by simp)
    · intro p hp
      simp only [List.mem_cons, List.not_mem_nil, or_false] at hp
      subst hp; exact hk
    · intro p hp
      simp only [List.mem_cons, List.not_mem_nil, or_false] at hp
      subst hp; exact CanonChild.one _ (Canon.text _ hb)
  constructor
  · refine C334_texts_partial c _ hi hl rfl rfl tag _ _ ht rfl ?_ (canon _ _ ?_)
    · rw [← h1]
      exact .dict (.attr (by simp) (by simp) (.child hk .yes .nil))
    · unfold Stripped; decide +kernel
  · refine C334_texts_partial c _ hi hl rfl rfl tag _ _ ht rfl ?_ (canon _ _ ?_)
    · rw [← h2]
      exact .dict (.attr (by simp) (by simp) (.child hk .none .nil))
    · unfold Stripped; decide +kernel

example : (unparse plain true [(S "r", .dict [(S "@k", .bool true), (S "k", .bool true)])]).toOption.bind (parse noForce) =
    some [(S "r", .dict [(S "@k", .str (S "True")), (S "k", .str (S "true"))])] := by decide +kernel

/-- `#text` must be a text: what is true and no text is an error, whatever else the element has. -/
theorem C334_text_violated (c : Cfg) (tag : Str) (v : Val) (d : Dict) (h1 : ∀ s, v ≠ .str s) (h2 : v.truthy = true) :
    unparse c true [(tag, .dict (("#text".toList, v) :: d))] = .error .typeError := by
  have : charsOf (some v) = .error .typeError := by
    cases v with
    | none => cases h2
    | str s => exact absurd rfl (h1 s)
    | _ => simp only [charsOf]; exact if_pos h2
  have hg : AList.get? (("#text".toList, v) :: d) kText = some v := by
    simp only [AList.get?]
    exact if_pos rfl
  unfold unparse
  rw [if_neg (by simp)]
  simp only [emitRoots, emit, wrap]
  rw [hg, this]
  rfl

example : (∀ s, Val.int 5 ≠ .str s) ∧ (Val.int 5).truthy = true := ⟨by simp, rfl⟩

/-! ### C335: prefixes are declared -/

theorem xmlns_fold (str : Val → Str) (hs : ∀ u, str (.str u) = u) (e : AList Str Str) (acc : AList Str Str) :
    (e.map fun p => (p.1, Val.str p.2)).foldl
      (fun acc p => AList.set acc (if p.1 = [] then "xmlns".toList else "xmlns:".toList ++ p.1) (str p.2)) acc =
    (e.map fun p => (declares p.1, p.2)).foldl (fun a p => AList.set a p.1 p.2) acc := by
  induction e generalizing acc with
  | nil => rfl
  | cons p e ih =>
    simp only [List.map_cons, List.foldl_cons, hs]
    rw [ih]
    rfl

/-- An element with `@xmlns` among its attributes declares the prefixes in their place. -/
theorem C335_declared (c : Cfg) (hp : c.pretty = false) (hs : ∀ u, c.str (.str u) = u) (tag : Str)
    (before after spaces : AList Str Str)
    (hn : (before.map Prod.fst ++ spaces.map (fun p => declares p.1) ++ after.map Prod.fst).Nodup) :
    unparse c true [(tag, .dict (before.map (fun p => ('@' :: p.1, Val.str p.2)) ++
        ("@xmlns".toList, .dict (spaces.map fun p => (p.1, Val.str p.2))) ::
        after.map (fun p => ('@' :: p.1, Val.str p.2))))] =
      .ok [.start tag (before ++ spaces.map (fun p => (declares p.1, p.2)) ++ after), .stop tag] := by
  have hw : AList.keys (before ++ spaces.map (fun p => (declares p.1, p.2)) ++ after) =
      before.map Prod.fst ++ spaces.map (fun p => declares p.1) ++ after.map Prod.fst := by
    simp [AList.keys]
  have hn3 := hw ▸ hn
  have hn2 : (AList.keys (before ++ spaces.map (fun p => (declares p.1, p.2)))).Nodup := by
    simp only [AList.keys, List.map_append] at hn3 ⊢
    exact (List.nodup_append.1 hn3).1
  have hn1 : (AList.keys ([] ++ before)).Nodup := by
    simp only [AList.keys, List.map_append, List.nil_append] at hn2 ⊢
    exact (List.nodup_append.1 hn2).1
  generalize hd : (before.map (fun p => ('@' :: p.1, Val.str p.2)) ++
        ("@xmlns".toList, Val.dict (spaces.map fun p => (p.1, Val.str p.2))) ::
        after.map (fun p => ('@' :: p.1, Val.str p.2)) : Dict) = d
  have hat : ∀ p ∈ d, ∃ k, p.1 = '@' :: k := by
    intro p hp
    rw [← hd] at hp
    simp only [List.mem_append, List.mem_map, List.mem_cons] at hp
    rcases hp with ⟨q, _, rfl⟩ | rfl | ⟨q, _, rfl⟩
    · exact ⟨_, rfl⟩
    · exact ⟨"xmlns".toList, rfl⟩
    · exact ⟨_, rfl⟩
  have hget : ∀ k : Str, k.head? = some '#' → AList.get? d k = none := by
    intro k hk
    rw [AList.get?_eq_none]
    intro hm
    simp only [AList.keys, List.mem_map] at hm
    obtain ⟨p, hp, rfl⟩ := hm
    obtain ⟨k, e⟩ := hat p hp
    rw [e] at hk
    simp only [List.head?_cons, Option.some.injEq] at hk
    exact absurd hk (by decide)
  have hany : d.any (fun p => isChildKey p.1) = false := by
    rw [List.any_eq_false]
    intro p hp
    obtain ⟨k, e⟩ := hat p hp
    simp [isChildKey, e]
  have hkids : ∀ (d : Dict) depth, (∀ p ∈ d, ∃ k, p.1 = '@' :: k) → emitChildren c depth d = .ok [] := by
    intro d depth h
    induction d with
    | nil => simp only [emitChildren]
    | cons p d ih =>
      obtain ⟨a, v⟩ := p
      obtain ⟨k, rfl⟩ := h (a, v) (by simp)
      simp only [emitChildren, isChildKey]
      simp [ih (fun q hq => h q (by simp [hq]))]
  have hattrs : attrsOf c.str d [] = before ++ spaces.map (fun p => (declares p.1, p.2)) ++ after := by
    rw [← hd, attrsOf_attrs, set_fold_nodup _ _ hn1, List.nil_append]
    have : attrsOf c.str (("@xmlns".toList, Val.dict (spaces.map fun p => (p.1, Val.str p.2))) ::
        after.map (fun p => ('@' :: p.1, Val.str p.2))) before =
        attrsOf c.str (after.map (fun p => ('@' :: p.1, Val.str p.2)))
          (setAttr c.str before "xmlns".toList (.dict (spaces.map fun p => (p.1, Val.str p.2)))) := rfl
    rw [this]
    have : setAttr c.str before "xmlns".toList (.dict (spaces.map fun p => (p.1, Val.str p.2))) =
        before ++ spaces.map (fun p => (declares p.1, p.2)) := by
      simp only [setAttr]
      rw [if_pos (show '@' :: "xmlns".toList = kXmlns from rfl), xmlns_fold c.str hs, set_fold_nodup _ _ hn2]
    rw [this]
    have := attrsOf_attrs c.str after [] (before ++ spaces.map (fun p => (declares p.1, p.2)))
    rw [List.append_nil] at this
    rw [this, attrsOf, set_fold_nodup _ _ hn3]
  simp only [unparse, emitRoots, emit, wrap, hget kText rfl, hget kTail rfl, hany, hkids d _ hat, hattrs, ws, hp]
  simp [charsOf, bind, Except.bind, pure, Except.pure]

example : (∀ u, (⟨false, [], [], fun v => match v with | .str u => u | _ => []⟩ : Cfg).str (.str u) = u) ∧
    unparse ⟨false, [], [], fun v => match v with | .str u => u | _ => []⟩ true
      [(S "r", .dict [(S "@a", .str (S "1")),
        (S "@xmlns", .dict [([], .str (S "http://x/")), (S "p", .str (S "http://y/"))]), (S "@b", .str (S "2"))])] =
    .ok [.start (S "r") [(S "a", S "1"), (S "xmlns", S "http://x/"), (S "xmlns:p", S "http://y/"), (S "b", S "2")],
      .stop (S "r")] := ⟨fun _ => rfl, by decide +kernel⟩

end Verif.Xml
