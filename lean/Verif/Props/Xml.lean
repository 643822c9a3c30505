import Verif.Lemmas.Xml
/-
C79, C80, C81, C107, C108, C109, C110: reading and writing XML.
-/
namespace Verif.Xml

/-- No tag is forced to a list. -/
def noForce : Str → Bool := fun _ => false
/-- `item` is forced to a list. -/
def forceItem : Str → Bool := fun k => k = "item".toList

def S (s : String) : Str := s.toList

def flat : Cfg := ⟨false, ['\n'], ['\t'], fun _ => S "?"⟩
def pretty : Cfg := ⟨true, ['\n'], ['\t'], fun _ => S "?"⟩

/-! ### C79: children with the same tag -/

/-- **C79**: children pushed one after the other are, per tag, the child itself if there is one (a list of one
for a forced tag) and the list of all of them in order if there are several; tags stand in the order of first
appearance. -/
theorem C79_children (fl : Str → Bool) (cs : List (Str × Val)) (hcs : ∀ p ∈ cs, ∀ l, p.2 ≠ .list l) (hne : cs ≠ []) :
    ∃ d, cs.foldl (fun item p => some (pushData fl item p.1 p.2)) none = some d ∧
      AList.keys d = (cs.map Prod.fst).eraseDups ∧
      (∀ k v, (cs.filter (fun p => p.1 = k)).map Prod.snd = [v] → AList.get? d k = some (if fl k then .list [v] else v)) ∧
      (∀ k, 2 ≤ (cs.filter (fun p => p.1 = k)).length →
        AList.get? d k = some (.list ((cs.filter (fun p => p.1 = k)).map Prod.snd))) ∧
      (∀ k, k ∉ cs.map Prod.fst → AList.get? d k = none) := by
  refine ⟨grouped fl cs, ?_, keys_grouped fl cs, ?_, ?_, ?_⟩
  · have := pushAll_none fl cs hcs
    rw [if_neg hne] at this
    exact this
  · intro k v h
    unfold grouped
    rw [get?_map_keys (fun k => collect (fl k) ((cs.filter (fun p => p.1 = k)).map Prod.snd)), if_pos]
    · rw [h]; simp [collect]
    · rw [List.mem_eraseDups]
      have : v ∈ (cs.filter (fun p => decide (p.1 = k))).map Prod.snd := by rw [h]; simp
      simp only [List.mem_map, List.mem_filter, decide_eq_true_eq] at this
      obtain ⟨p, ⟨hp, rfl⟩, -⟩ := this
      exact List.mem_map_of_mem hp
  · intro k h
    unfold grouped
    rw [get?_map_keys (fun k => collect (fl k) ((cs.filter (fun p => p.1 = k)).map Prod.snd)), if_pos]
    · match he : (cs.filter (fun p => decide (p.1 = k))).map Prod.snd with
      | [] => simp only [List.map_eq_nil_iff] at he; rw [he] at h; simp at h
      | [v] =>
        have := congrArg List.length he
        simp only [List.length_map, List.length_cons, List.length_nil] at this
        omega
      | v :: w :: vs => rw [he]; rfl
    · rw [List.mem_eraseDups]
      match he : cs.filter (fun p => decide (p.1 = k)) with
      | [] => rw [he] at h; simp at h
      | p :: ps =>
        have : p ∈ cs.filter (fun p => decide (p.1 = k)) := by rw [he]; simp
        simp only [List.mem_filter, decide_eq_true_eq] at this
        obtain ⟨hp, rfl⟩ := this
        exact List.mem_map_of_mem hp
  · intro k h
    rw [AList.get?_eq_none, keys_grouped, List.mem_eraseDups]
    exact h

example : ∃ cs : List (Str × Val), (∀ p ∈ cs, ∀ l, p.2 ≠ .list l) ∧ cs ≠ [] ∧
    cs.foldl (fun item p => some (pushData forceItem item p.1 p.2)) none =
      some [(S "b", .list [.str (S "1"), .dict [], .str (S "3")]), (S "item", .list [.int 2]), (S "c", .none)] :=
  ⟨[(S "b", .str (S "1")), (S "item", .int 2), (S "b", .dict []), (S "c", .none), (S "b", .str (S "3"))],
    by simp, by simp, by decide +kernel⟩

/-- **C79**: a document of any depth is read as the dictionary it stands for. -/
theorem C79_parse (fl : Str → Bool) (f1 : fl kText = false) (f2 : fl kTail = false) (name : Str) (attrs : AList Str Str)
    (content : List Node) (h : (Node.elem name attrs content).Good) :
    parse fl (Node.elem name attrs content).events =
      some [(name, collect (fl name) [(Node.elem name attrs content).value fl])] := by
  rw [parse, feed_elem fl f1 f2 name attrs content h]
  rfl

/-- `<a x="1">t<b/>u<b> v </b><item>w</item></a>` -/
def doc1 : Node := .elem (S "a") [(S "x", S "1")]
  [.text (S "t"), .elem (S "b") [] [], .text (S "u"), .elem (S "b") [] [.text (S " v ")], .elem (S "item") [] [.text (S "w")]]

example : doc1.Good ∧ parse forceItem doc1.events = some [(S "a", .dict [(S "@x", .str (S "1")),
    (S "b", .list [.str [], .str (S "v")]), (S "item", .list [.str (S "w")]), (S "#text", .str (S "t")), (S "#tail", .str (S "u"))])] := by
  refine ⟨?_, by decide +kernel⟩
  simp only [doc1, Node.Good, GoodL, and_true, GoodName]
  decide

/-! ### C80: write, then read -/

theorem parse_emitted (c : Cfg) (fl : Str → Bool) (f1 : fl kText = false) (f2 : fl kTail = false) (name : Str)
    (attrs : AList Str Str) (content : List Node) (h : (Node.elem name attrs content).Good) :
    parse fl (ws c (times 0 c.indent) ++ (Node.elem name attrs content).events) =
      some [(name, collect (fl name) [(Node.elem name attrs content).value fl])] := by
  rw [← C79_parse fl f1 f2 name attrs content h]
  unfold ws
  split
  · simp [times, parse, feed]
  · rfl

/-- **C80**: a canonical document written and read again is unchanged, with and without pretty printing. -/
theorem C80_roundtrip (c : Cfg) (fl : Str → Bool) (hi : ∀ x ∈ c.indent, isSpace x = true)
    (hl : ∀ x ∈ c.newl, isSpace x = true) (f1 : fl kText = false) (f2 : fl kTail = false) (tag : Str) (v : Val)
    (ht : GoodName tag) (h : Canon fl v) :
    ∃ evs, unparse c true [(tag, if fl tag then .list [v] else v)] = .ok evs ∧
      parse fl evs = some [(tag, if fl tag then .list [v] else v)] := by
  obtain ⟨attrs, content, e1, e2, e3⟩ := emit_canon c fl hi hl true 0 tag v ht h
  simp only [if_true, List.append_nil] at e1
  refine ⟨ws c (times 0 c.indent) ++ (Node.elem tag attrs content).events, ?_, ?_⟩
  · unfold unparse
    rw [if_neg (by simp)]
    by_cases hf : fl tag = true
    · simp only [hf, if_true, emitRoots, emit]
      rw [emitItems_cons _ _ _ _ _ _ _ (canon_notList h) (by simp), e1]
      simp [emitItems, bind, Except.bind, pure, Except.pure]
    · simp only [hf, Bool.false_eq_true, if_false, emitRoots, e1]
      simp [bind, Except.bind, pure, Except.pure]
  · rw [parse_emitted c fl f1 f2 tag attrs content e2, e3]
    rfl

/-- `{'@x': '1', 'b': ['', 'v w'], 'c': {'d': 'e'}, '#text': 't'}` -/
def val1 : Val := .dict [(S "@x", .str (S "1")), (S "b", .list [.str [], .str (S "v w")]),
  (S "c", .dict [(S "d", .str (S "e"))]), (S "#text", .str (S "t"))]

theorem canon_val1 : Canon noForce val1 := by
  refine Canon.node [(S "x", S "1")] [(S "b", .list [.str [], .str (S "v w")]), (S "c", .dict [(S "d", .str (S "e"))])]
    (some (S "t")) (by simp) (by decide) (by decide) ?_ ?_ ?_
  · intro p hp
    simp only [List.mem_cons, List.not_mem_nil, or_false] at hp
    rcases hp with rfl | rfl <;> exact ⟨by decide, by decide⟩
  · intro p hp
    simp only [List.mem_cons, List.not_mem_nil, or_false] at hp
    rcases hp with rfl | rfl
    · refine CanonChild.many false _ (by simp) ?_
      intro w hw
      simp only [List.mem_cons, List.not_mem_nil, or_false] at hw
      rcases hw with rfl | rfl <;> exact Canon.text _ (by unfold Stripped; decide +kernel)
    · refine CanonChild.one _ (Canon.node [] [(S "d", .str (S "e"))] none (by simp) (by decide) (by decide) ?_ ?_ (by simp))
      · intro p hp
        simp only [List.mem_cons, List.not_mem_nil, or_false] at hp
        subst hp; exact ⟨by decide, by decide⟩
      · intro p hp
        simp only [List.mem_cons, List.not_mem_nil, or_false] at hp
        subst hp; exact CanonChild.one _ (Canon.text _ (by unfold Stripped; decide +kernel))
  · intro t ht
    cases ht
    exact ⟨by unfold Stripped; decide +kernel, by decide⟩

example : (∀ x ∈ pretty.indent, isSpace x = true) ∧ (∀ x ∈ pretty.newl, isSpace x = true) ∧ noForce kText = false ∧
    noForce kTail = false ∧ GoodName (S "a") ∧ Canon noForce val1 ∧
    (unparse pretty true [(S "a", val1)]).toOption.bind (parse noForce) = some [(S "a", val1)] :=
  ⟨by decide +kernel, by decide +kernel, rfl, rfl, ⟨by decide, by decide⟩, canon_val1, by decide +kernel⟩

/-! ### C81: one root -/

/-- **C81** (the first half; for the second see `C81_error_partial`): a full document is only written from a
dictionary of one key whose value is no list of several items. -/
theorem C81_one_root (c : Cfg) (d : Dict) (evs : List Event) (h : unparse c true d = .ok evs) :
    ∃ k v, d = [(k, v)] ∧ ∀ l, v = .list l → l.length ≤ 1 := by
  unfold unparse at h
  match d with
  | [] => simp at h
  | _ :: _ :: _ => simp at h
  | [(k, v)] =>
    refine ⟨k, v, rfl, ?_⟩
    rintro l rfl
    rw [if_neg (by simp)] at h
    simp only [emitRoots, emit] at h
    match l with
    | [] => simp
    | [_] => simp
    | a :: b :: l =>
      exfalso
      obtain ⟨r, hr⟩ := emitItems_head c true 0 k a
      obtain ⟨r', hr'⟩ := emitItems_head c true 0 k b
      rw [hr, hr', if_neg (by simp), if_pos (by simp)] at h
      cases r <;> simp [bind, Except.bind] at h

example : ∃ evs, unparse flat true [(S "a", .list [.str (S "x")])] = .ok evs := ⟨_, rfl⟩

/-- **C81** (the second half, in part: when the first item of a list of several cannot be written, the exception is
the one of that item): a dictionary of no key or of several keys, or of a list of several items, is refused with
ValueError. -/
theorem C81_error_partial (c : Cfg) (d : Dict) :
    (d.length ≠ 1 → unparse c true d = .error .valueError) ∧
    (∀ k a b l, d = [(k, .list (a :: b :: l))] → (∃ evs, unparse c true [(k, .list [a])] = .ok evs) →
      unparse c true d = .error .valueError) := by
  constructor
  · intro h
    simp [unparse, h]
  · rintro k a b l rfl ⟨evs, h⟩
    simp only [unparse, emitRoots, emit] at h ⊢
    rw [if_neg (by simp)] at h ⊢
    obtain ⟨r, hr⟩ := emitItems_head c true 0 k a
    obtain ⟨r', hr'⟩ := emitItems_head c true 0 k b
    rw [hr, if_neg (by simp)] at h ⊢
    rw [hr', if_pos (by simp)]
    cases r with
    | error e => simp [bind, Except.bind] at h
    | ok x => rfl

example : ∃ k a b l, (∃ evs, unparse flat true [(k, .list [a])] = .ok evs) ∧
    unparse flat true [(k, .list (a :: b :: l))] = .error .valueError :=
  ⟨S "a", .str (S "x"), .int 1, [], ⟨_, rfl⟩, by decide +kernel⟩

/-- **C81 violated**: several items under the root may give TypeError, and a root with an empty list gives a
document without any root. -/
theorem C81_error_violated :
    (∃ d, unparse flat true d = .error .typeError ∧ d = [(S "a", .list [.dict [(S "#text", .int 5)], .str (S "x")])]) ∧
    (∃ d, unparse flat true d = .ok [] ∧ d = [(S "a", .list [])]) := by
  exact ⟨⟨_, by decide +kernel, rfl⟩, ⟨_, by decide +kernel, rfl⟩⟩

/-! ### C107: texts in pieces -/

/-- **C107** (for elements without attributes and children, cut where no white space is; what the others lose is
shown below): the text of an element does not depend on the pieces in which the parser delivers it. -/
theorem C107_pieces_partial (fl : Str → Bool) (name : Str) (ps : List Str) (hp : ∀ p ∈ ps, Stripped p)
    (hs : Stripped ps.flatten) :
    parseRaw fl (.start name [] :: (ps.map .chars ++ [.stop name])) =
      parseRaw fl [.start name [], .chars ps.flatten, .stop name] := by
  have key : ∀ (qs : List Str) (h : H), (qs.map Event.chars).foldl (handle fl) h = { h with data := h.data ++ qs } := by
    intro qs
    induction qs with
    | nil => intro h; simp
    | cons q qs ih =>
      intro h
      rw [List.map_cons, List.foldl_cons, ih]
      simp [handle, characters]
  have hm : ps.map (strip isSpace) = ps := by
    conv => rhs; rw [← List.map_id ps]
    exact List.map_congr_left (fun p h => hp p h)
  unfold parseRaw
  rw [List.foldl_cons, List.foldl_append, key]
  have hs' : strip isSpace ps.flatten = ps.flatten := hs
  simp [handle, startElement, endElement, characters, hm, hs']

example : (∀ p ∈ [S "ab", S "c d", S "e"], Stripped p) ∧ Stripped [S "ab", S "c d", S "e"].flatten ∧
    parseRaw noForce [.start (S "a") [], .chars (S "ab"), .chars (S "c d"), .chars (S "e"), .stop (S "a")] =
      some [(S "a", .str (S "abc de"))] := by
  refine ⟨?_, by unfold Stripped; decide +kernel, by decide +kernel⟩
  intro p hp
  simp only [List.mem_cons, List.not_mem_nil, or_false] at hp
  rcases hp with rfl | rfl | rfl <;> (unfold Stripped; decide +kernel)

/-- **C107 violated**: white space at the cut is lost; with an attribute, the second piece becomes `#tail` and
the third is lost. -/
theorem C107_pieces_violated :
    (parseRaw noForce [.start (S "a") [], .chars (S "x y"), .stop (S "a")] = some [(S "a", .str (S "x y"))] ∧
     parseRaw noForce [.start (S "a") [], .chars (S "x "), .chars (S "y"), .stop (S "a")] = some [(S "a", .str (S "xy"))]) ∧
    (parseRaw noForce [.start (S "a") [(S "k", S "1")], .chars (S "xyz"), .stop (S "a")] =
      some [(S "a", .dict [(S "@k", .str (S "1")), (S "#text", .str (S "xyz"))])] ∧
     parseRaw noForce [.start (S "a") [(S "k", S "1")], .chars (S "x"), .chars (S "y"), .chars (S "z"), .stop (S "a")] =
      some [(S "a", .dict [(S "@k", .str (S "1")), (S "#text", .str (S "x")), (S "#tail", .str (S "y"))])]) := by
  decide +kernel

/-! ### C108: the serialiser -/

/-- **C108 violated**: the XML serialiser writes nothing, whatever the value and the options: `force_list` is
handed to a function which has no such argument. -/
theorem C108_serialize_violated (c : Cfg) (opts : List Str) (tag : Str) (v : Val) :
    serializeXml c opts tag v = .error .typeError := by
  have h : ¬ (true = true ∧ [(tag, v)].length ≠ 1) := by simp
  unfold serializeXml unparseKw
  rw [if_neg h, if_pos]
  refine ⟨by simp, ?_⟩
  rw [List.any_append]
  have : (["attr_prefix", "cdata_key", "force_list", "pretty", "indent", "newl"].map (·.toList)).any
      (fun k => decide (k ∉ emitParams)) = true := by decide +kernel
  rw [this]; rfl

/-- **C108** (in part: the rest of the serialiser): without that keyword, and with no options `_emit` does not know,
a canonical document is written, and reads back as it is. -/
theorem C108_without_force_list_partial (c : Cfg) (fl : Str → Bool) (hi : ∀ x ∈ c.indent, isSpace x = true)
    (hl : ∀ x ∈ c.newl, isSpace x = true) (f1 : fl kText = false) (f2 : fl kTail = false) (tag : Str) (v : Val)
    (ht : GoodName tag) (hf : fl tag = false) (h : Canon fl v) (opts : List Str) (ho : ∀ o ∈ opts, o ∈ emitParams) :
    ∃ evs, unparseKw c true (["attr_prefix", "cdata_key", "pretty", "indent", "newl"].map (·.toList) ++ opts) [(tag, v)] = .ok evs ∧
      (deserializeXml fl none evs).2 = .ok v := by
  obtain ⟨evs, e1, e2⟩ := C80_roundtrip c fl hi hl f1 f2 tag v ht h
  simp only [hf, Bool.false_eq_true, if_false] at e1 e2
  refine ⟨evs, ?_, ?_⟩
  · rw [unparse, if_neg (by simp)] at e1
    unfold unparseKw
    rw [if_neg (by simp), if_neg, e1]
    rintro ⟨-, ha⟩
    rw [List.any_append, Bool.or_eq_true] at ha
    rcases ha with ha | ha
    · revert ha; decide +kernel
    · rw [List.any_eq_true] at ha
      obtain ⟨o, ho', hno⟩ := ha
      simp only [decide_eq_true_eq] at hno
      exact hno (ho o ho')
  · simp [deserializeXml, e2, AList.keys, AList.get?]

example : ∃ opts : List Str, (∀ o ∈ opts, o ∈ emitParams) ∧ opts ≠ [] ∧
    (unparseKw pretty true (["attr_prefix", "cdata_key", "pretty", "indent", "newl"].map (·.toList) ++ opts)
      [(S "a", val1)]).toOption.map (fun evs => (deserializeXml noForce none evs).2.toOption) = some (some val1) :=
  ⟨[S "expand_iter"], by decide +kernel, by simp, by decide +kernel⟩

/-! ### C109: reading documents one after the other -/

/-- **C109** (for a deserialiser which has not read a document of another root before): the content of the root is
returned, and the tag of the root remembered. -/
theorem C109_root_partial (fl : Str → Bool) (f1 : fl kText = false) (f2 : fl kTail = false) (name : Str) (attrs : AList Str Str)
    (content : List Node) (h : (Node.elem name attrs content).Good) (tag : Option Str)
    (ht : tag = none ∨ tag = some [] ∨ tag = some name) :
    deserializeXml fl tag (Node.elem name attrs content).events =
      (some name, .ok (collect (fl name) [(Node.elem name attrs content).value fl])) := by
  unfold deserializeXml
  rw [C79_parse fl f1 f2 name attrs content h]
  rcases ht with rfl | rfl | rfl
  · simp [AList.keys, AList.get?]
  · simp [AList.keys, AList.get?]
  · cases name <;> simp [AList.keys, AList.get?]

example : doc1.Good ∧ deserializeXml forceItem (some (S "a")) doc1.events = (some (S "a"), .ok (.dict [(S "@x", .str (S "1")),
    (S "b", .list [.str [], .str (S "v")]), (S "item", .list [.str (S "w")]), (S "#text", .str (S "t")), (S "#tail", .str (S "u"))])) := by
  refine ⟨?_, by decide +kernel⟩
  simp only [doc1, Node.Good, GoodL, and_true, GoodName]
  decide

/-- **C109 violated**: once a document has been read, every document of another root is refused with KeyError. -/
theorem C109_root_violated (fl : Str → Bool) (f1 : fl kText = false) (f2 : fl kTail = false)
    (n m : Str) (hm : m ≠ []) (hnm : m ≠ n) (as as' : AList Str Str) (c c' : List Node)
    (h : (Node.elem n as c).Good) (h' : (Node.elem m as' c').Good) :
    let first := deserializeXml fl none (Node.elem m as' c').events
    (deserializeXml fl first.1 (Node.elem n as c).events).2 = .error .keyError := by
  rw [C109_root_partial fl f1 f2 m as' c' h' none (.inl rfl)]
  simp only
  unfold deserializeXml
  rw [C79_parse fl f1 f2 n as c h]
  cases m with
  | nil => exact absurd rfl hm
  | cons x m => simp [AList.get?, Ne.symm hnm]

example : (Node.elem (S "b") [] [.text (S "x")]).Good ∧ (Node.elem (S "a") [] []).Good ∧
    (deserializeXml noForce none (Node.elem (S "a") [] []).events) = (some (S "a"), .ok (.str [])) ∧
    (deserializeXml noForce (some (S "a")) (Node.elem (S "b") [] [.text (S "x")]).events).2.toOption = none := by
  refine ⟨?_, ?_, by decide +kernel, by decide +kernel⟩ <;>
  · simp only [Node.Good, GoodL, and_true, GoodName]
    decide

/-! ### C110: the text after the children -/

/-- **C110** (in part: with a text before the children, at least one child and no pretty printing; what happens
otherwise is shown below): the text under `#tail` is written after the children and read as `#tail` again. -/
theorem C110_tail_partial (c : Cfg) (hc : c.pretty = false) (fl : Str → Bool) (hi : ∀ x ∈ c.indent, isSpace x = true)
    (hl : ∀ x ∈ c.newl, isSpace x = true) (f1 : fl kText = false) (f2 : fl kTail = false) (tag : Str) (ht : GoodName tag)
    (hft : fl tag = false) (attrs : AList Str Str) (children : Dict) (text tail : Str) (h0 : children ≠ [])
    (h1 : (AList.keys attrs).Nodup) (h2 : (AList.keys children).Nodup)
    (h3 : ∀ p ∈ children, GoodName p.1) (h4 : ∀ p ∈ children, CanonChild fl (fl p.1) p.2)
    (h5 : Stripped text ∧ text ≠ []) (h6 : Stripped tail ∧ tail ≠ []) :
    let v := Val.dict (attrs.map (fun p => ('@' :: p.1, Val.str p.2)) ++ children ++ [(kText, .str text)] ++ [(kTail, .str tail)])
    ∃ evs, unparse c true [(tag, v)] = .ok evs ∧ parse fl evs = some [(tag, v)] := by
  intro v
  obtain ⟨ns, e1, e2, e3, e4, e5⟩ := written_children c fl hi hl 0 children h3 h4 (by
    intro p hp w _ hcw
    exact emit_canon c fl hi hl true 1 p.1 w (h3 p hp) hcw)
  have hgr := grouped_children children h2 h4
  have hgood : (Node.elem tag attrs ([.text text] ++ ns ++ [.text tail])).Good := by
    rw [Node.Good]
    refine ⟨ht, h1, goodL_append (goodL_append ?_ e3) ?_⟩ <;> simp [GoodL, Node.Good]
  have hns : ns ≠ [] := by
    rintro rfl
    rw [← e4] at hgr
    exact h0 (by simpa [kidsOf, grouped] using hgr.symm)
  have hk : kidsOf fl ([.text text] ++ ns ++ [.text tail]) = children.flatMap (fun p => spread p.1 p.2) := by
    rw [kidsOf_append, kidsOf_append, e4]; simp [kidsOf]
  have hval : (Node.elem tag attrs ([.text text] ++ ns ++ [.text tail])).value fl = v := by
    rw [Node.value, hk]
    rw [if_neg, hgr]
    · have hr : textRuns [] ([.text text] ++ ns ++ [.text tail]) = [text, tail] := by
        rw [List.append_assoc, List.cons_append, List.nil_append, textRuns, List.nil_append]
        exact runs_noText_buf (e5 hc) hns h5.2 h6.2
      rw [hr]
      have a1 : strip isSpace text = text := h5.1
      have a2 : strip isSpace tail = tail := h6.1
      have b1 : entry kText (some text) = [(kText, .str text)] := by
        cases text with
        | nil => exact absurd rfl h5.2
        | cons x t => rfl
      have b2 : entry kTail (some tail) = [(kTail, .str tail)] := by
        cases tail with
        | nil => exact absurd rfl h6.2
        | cons x t => rfl
      simp only [List.map_cons, List.map_nil, a1, a2, List.getElem?_cons_zero, List.getElem?_cons_succ, b1, b2]
      rfl
    · rintro ⟨-, hb⟩
      rw [hb] at hgr
      exact h0 hgr.symm
  refine ⟨(Node.elem tag attrs ([.text text] ++ ns ++ [.text tail])).events, ?_, ?_⟩
  · have hemit : emit c true 0 tag v = .ok (Node.elem tag attrs ([.text text] ++ ns ++ [.text tail])).events := by
      have hkids : emitChildren c 1 (attrs.map (fun p => ('@' :: p.1, Val.str p.2)) ++ children ++ [(kText, .str text)] ++
          [(kTail, .str tail)]) = .ok (eventsL ns) := by
        rw [emitChildren_append, emitChildren_append, emitChildren_append, e1,
          emitChildren_none _ _ (attrs.map (fun p => ('@' :: p.1, Val.str p.2))),
          emitChildren_none _ _ [(kText, Val.str text)], emitChildren_none _ _ [(kTail, Val.str tail)]]
        · simp [bind, Except.bind, pure, Except.pure]
        · intro p hp; simp only [List.mem_singleton] at hp; subst hp; exact (by decide : isChildKey kTail = false)
        · intro p hp; simp only [List.mem_singleton] at hp; subst hp; exact (by decide : isChildKey kText = false)
        · intro p hp
          simp only [List.mem_map] at hp
          obtain ⟨q, -, rfl⟩ := hp
          exact isChildKey_at _
      have hattrs : attrsOf c.str (attrs.map (fun p => ('@' :: p.1, Val.str p.2)) ++ children ++ [(kText, .str text)] ++
          [(kTail, .str tail)]) [] = attrs := by
        rw [List.append_assoc, List.append_assoc, attrsOf_attrs, attrsOf_skip, set_fold_nodup]
        · simp
        · simpa using h1
        · intro p hp
          rcases List.mem_append.1 hp with hp | hp
          · exact (h3 p hp).1
          · simp only [List.cons_append, List.nil_append, List.mem_cons, List.not_mem_nil, or_false] at hp
            rcases hp with rfl | rfl
            · exact (by decide : List.head? kText ≠ some '@')
            · exact (by decide : List.head? kTail ≠ some '@')
      have hnomem : ∀ k, ¬ GoodName k → k.head? ≠ some '@' →
          k ∉ AList.keys (attrs.map (fun p => ('@' :: p.1, Val.str p.2)) ++ children) := by
        intro k hk hk' hm
        rw [AList.keys, List.map_append, List.mem_append] at hm
        rcases hm with hm | hm
        · simp only [List.map_map, List.mem_map, Function.comp_apply] at hm
          obtain ⟨q, -, rfl⟩ := hm
          simp at hk'
        · simp only [List.mem_map] at hm
          obtain ⟨q, hq, rfl⟩ := hm
          exact hk (h3 q hq)
      have hT : AList.get? (attrs.map (fun p => ('@' :: p.1, Val.str p.2)) ++ children ++ [(kText, .str text)] ++
          [(kTail, .str tail)]) kText = some (.str text) := by
        rw [List.append_assoc, get?_append_notMem (hnomem kText (by simp [GoodName, kText]) (by decide))]
        simp [AList.get?]
      have hL : AList.get? (attrs.map (fun p => ('@' :: p.1, Val.str p.2)) ++ children ++ [(kText, .str text)] ++
          [(kTail, .str tail)]) kTail = some (.str tail) := by
        rw [List.append_assoc, get?_append_notMem (hnomem kTail (by simp [GoodName, kTail]) (by decide))]
        have : (kText = kTail) = False := by simp; decide
        simp [AList.get?, this]
      have tT : ∀ s : Str, s ≠ [] → charsOf (some (.str s)) = .ok [.chars s] := by
        intro s hs
        simp [charsOf, Val.truthy, hs]
      rw [emit, wrap, hkids, hattrs, hT, hL, tT text h5.2, tT tail h6.2]
      simp [ws, hc, bind, Except.bind, pure, Except.pure, Node.events, eventsL, eventsL_append]
    rw [unparse, if_neg (by simp)]
    simp [emitRoots, hemit, bind, Except.bind, pure, Except.pure]
  · rw [C79_parse fl f1 f2 _ _ _ hgood, hval, hft]
    rfl

example : ∃ children : Dict, children ≠ [] ∧ (AList.keys children).Nodup ∧ (∀ p ∈ children, GoodName p.1) ∧
    (∀ p ∈ children, CanonChild noForce (noForce p.1) p.2) ∧
    (unparse flat true [(S "a", .dict (children ++ [(kText, .str (S "t"))] ++ [(kTail, .str (S "u"))]))]).toOption.bind (parse noForce) =
      some [(S "a", .dict [(S "b", .str (S "x")), (S "c", .str []), (S "#text", .str (S "t")), (S "#tail", .str (S "u"))])] := by
  refine ⟨[(S "b", .str (S "x")), (S "c", .str [])], by simp, by decide, ?_, ?_, by decide +kernel⟩
  · intro p hp
    simp only [List.mem_cons, List.not_mem_nil, or_false] at hp
    rcases hp with rfl | rfl <;> exact ⟨by decide, by decide⟩
  · intro p hp
    simp only [List.mem_cons, List.not_mem_nil, or_false] at hp
    rcases hp with rfl | rfl <;> exact CanonChild.one _ (Canon.text _ (by unfold Stripped; decide +kernel))

/-- **C110 violated**: without a text before the children the tail becomes the text; without children it is joined to
the text; with pretty printing and two children it is lost. -/
theorem C110_tail_violated :
    (unparse flat true [(S "a", .dict [(S "b", .str (S "x")), (kTail, .str (S "u"))])]).toOption.bind (parse noForce) =
      some [(S "a", .dict [(S "b", .str (S "x")), (kText, .str (S "u"))])] ∧
    (unparse flat true [(S "a", .dict [(S "@k", .str (S "1")), (kText, .str (S "t")), (kTail, .str (S "u"))])]).toOption.bind (parse noForce) =
      some [(S "a", .dict [(S "@k", .str (S "1")), (kText, .str (S "tu"))])] ∧
    (unparse pretty true [(S "a", .dict [(S "b", .str (S "x")), (S "c", .str (S "y")), (kText, .str (S "t")), (kTail, .str (S "u"))])]).toOption.bind
        (parse noForce) =
      some [(S "a", .dict [(S "b", .str (S "x")), (S "c", .str (S "y")), (kText, .str (S "t"))])] := by
  decide +kernel

end Verif.Xml
