import Verif.Lemmas.XmlOptions
import Verif.Lemmas.Xml
/-
C346-C349: the options of reading XML.
-/
namespace Verif.XmlOptions
open XmlNs Spec
open Xml (Dict)

/-- Without the options, and with texts in one piece, this is the handler of `Verif.Xml`. -/
theorem default_handler (fl : Str → Bool) (evs : List Xml.Event) :
    parse { force := .call fun _ k _ => fl k } (evs.map .ev) = (evs.foldl (Xml.handle fl) ⟨none, [], []⟩).item := by
  have hput : ∀ p (item : Option Dict) k v s, put { force := .call fun _ k _ => fl k } p item k v s = Xml.pushData fl item k v := by
    intro p item k v s; rfl
  have hpush : ∀ p (item : Option Dict) k v s, pushData { force := .call fun _ k _ => fl k } p item k v s
      = some (Xml.pushData fl item k v) := by
    intro p item k v s; rfl
  have htext : ∀ p (it : Dict) k t, pushText { force := .call fun _ k _ => fl k } p it k t = Xml.pushText fl it k t := by
    intro p it k t
    unfold pushText Xml.pushText
    rcases t with _ | _ | _ <;> rfl
  have hjoin : ∀ l : List Str, joinWith [] l = l.flatten := by
    intro l
    induction l with
    | nil => rfl
    | cons a l ih => cases l <;> simp_all [joinWith]
  have hstep : ∀ (s : S) (e : Xml.Event),
      (fun s : S => (⟨s.item, s.data, s.stack⟩ : Xml.H)) (handle { force := .call fun _ k _ => fl k } s (.ev e))
        = Xml.handle fl ⟨s.item, s.data, s.stack⟩ e := by
    intro s e
    cases e with
    | start name attrs =>
      simp only [handle, startElement, Xml.handle, Xml.startElement, Xml.H.mk.injEq, and_true, true_and]
      unfold attrItem
      have : attrs.filterMap (attr { force := .call fun _ k _ => fl k } (s.path ++ [(name, attrs)]))
          = attrs.map fun p => ('@' :: p.1, Val.str p.2) := by
        rw [← List.filterMap_eq_map]
        rfl
      rw [this]
      cases attrs with
      | nil => rfl
      | cons a as => simp
    | chars t => rfl
    | stop name =>
      simp only [handle, endElement, Xml.handle, Xml.endElement]
      cases s.stack with
      | nil => rfl
      | cons q st =>
        simp only [close, opened]
        cases s.item with
        | none =>
          simp [hjoin]
          rfl
        | some it =>
          simp [hpush, htext]
          rfl
  have : ∀ (evs : List Xml.Event) (s : S),
      (fun s : S => (⟨s.item, s.data, s.stack⟩ : Xml.H)) ((evs.map Ev.ev).foldl (handle { force := .call fun _ k _ => fl k }) s)
        = evs.foldl (Xml.handle fl) ⟨s.item, s.data, s.stack⟩ := by
    intro evs
    induction evs with
    | nil => intro s; rfl
    | cons e evs ih =>
      intro s
      rw [List.map_cons, List.foldl_cons, List.foldl_cons, ih, ← hstep]
  have h := congrArg Xml.H.item (this evs ⟨[], none, [], []⟩)
  exact h

/-! ### C346: force_list makes lists of the elements it names, and of no others -/

/-- Elements of one name stand in a list if there are several, or if the name is forced; whatever stands inside. -/
theorem C346_lists_partial (o : O) (h0 : o.post = none) (hc : NotCall o.force) (root : Str) (attrs : AList Str Str)
    (content : List Node) (k : Str) (hk : k ≠ o.commentKey ∧ k ≠ o.textKey ∧ k ≠ o.tailKey ∧ o.attrPrefix.isPrefixOf k = false)
    (hn : content.any (isElem k) = true) :
    ∃ v d vs, parse o (eventsL [.elem root attrs content]) = some [(root, v)] ∧ (v = .dict d ∨ v = .list [.dict d])
      ∧ vs.length = (content.filter (isElem k)).length ∧ (∀ w ∈ vs, ∀ l, w ≠ .list l)
      ∧ (AList.get? d k = some (.list vs) ↔ 2 ≤ vs.length ∨ Listed o.force k)
      ∧ ∀ w, vs = [w] → ¬ Listed o.force k → AList.get? d k = some w := by
  have hb := blind_of hc
  rw [parse_eventsL]
  simp only [runL, run, List.nil_append]
  obtain ⟨vs, h1, h2, h3⟩ := runL_lists h0 hb [(root, attrs)] k hk.1 content (attrItem o [(root, attrs)] attrs, []) [] (by simp) (by
    simp only [grouped]
    rw [AList.get?_eq_none]
    intro hm
    unfold attrItem at hm
    split at hm
    · split at hm
      · simp [AList.keys] at hm
      next e es hes =>
        rcases keys_update _ _ k hm with h | h
        · simp [AList.keys] at h
        · rw [← hes] at h
          obtain ⟨e', he', rfl⟩ := List.mem_map.mp h
          obtain ⟨a, -, ha⟩ := List.mem_filterMap.mp he'
          simp only [attr, h0, Option.some.injEq] at ha
          subst ha
          have := hk.2.2.2
          rw [show o.attrPrefix.isPrefixOf (o.attrPrefix ++ a.1) = true from by
            rw [List.isPrefixOf_iff_prefix]; exact ⟨a.1, rfl⟩] at this
          exact absurd this (by simp)
    · simp [AList.keys] at hm)
  rw [List.nil_append] at h2 h3
  have hsome : ∃ it, (runL o [(root, attrs)] content (attrItem o [(root, attrs)] attrs, [])).1 = some it := by
    cases hr : (runL o [(root, attrs)] content (attrItem o [(root, attrs)] attrs, [])).1 with
    | some it => exact ⟨it, rfl⟩
    | none =>
      obtain ⟨-, ts, ht, -⟩ := runL_none h0 _ _ _ hr
      subst ht
      simp [isElem] at hn
  obtain ⟨it, hit⟩ := hsome
  rw [hit] at h2
  generalize (runL o [(root, attrs)] content (attrItem o [(root, attrs)] attrs, [])).2 = data
  rw [hit]
  have hset : ∀ (d : Dict) key t, key ≠ k → AList.get? (pushText o [(root, attrs)] d key t) k = AList.get? d k := by
    intro d key t hne
    unfold pushText
    split
    · rw [pushData_plainPost h0, Option.getD_some]
      unfold put
      dsimp only [Option.getD_some]
      generalize (if forced o [(root, attrs)] key _ = true then Val.list [_] else _) = u
      split <;> rw [AList.get?_set_ne _ _ hne]
    · rfl
  unfold close
  generalize (if o.strip = true then data.map (Verif.strip isSpace) else data) = data'
  dsimp only
  rw [show opened o (some it) data' = some it from by simp [opened]]
  simp only
  rw [pushData_plainPost h0]
  refine ⟨_, pushText o [(root, attrs)] (pushText o [(root, attrs)] it o.textKey data'[0]?) o.tailKey data'[1]?, vs,
    rfl, ?_, h1, h3, ?_⟩
  · split
    · exact .inr rfl
    · exact .inl rfl
  · rw [hset _ _ _ (Ne.symm hk.2.2.1), hset _ _ _ (Ne.symm hk.2.1)]
    rw [Option.getD_some] at h2
    rw [h2]
    have hL := listed_iff hc [] k .none
    have hne : vs ≠ [] := by
      intro e
      subst e
      obtain ⟨n, hm, hn'⟩ := List.any_eq_true.mp hn
      have : n ∈ content.filter (isElem k) := List.mem_filter.mpr ⟨hm, hn'⟩
      rw [List.eq_nil_of_length_eq_zero h1.symm] at this
      exact absurd this (by simp)
    match vs, hne, h3 with
    | [w], _, h3 =>
      have hw := h3 w (by simp)
      simp only [grouped]
      by_cases hf : forced o [] k .none = true
      · exact ⟨by simp [hf, hL.mp hf], fun w' _ hn => absurd (hL.mp hf) hn⟩
      · have : ¬ Listed o.force k := fun h => hf (hL.mpr h)
        simp only [hf]
        refine ⟨by simp [this, hw], fun w' hw' _ => ?_⟩
        cases hw'
        rfl
    | w :: w' :: ws, _, _ => exact ⟨by simp [grouped], fun _ h => by simp at h⟩

example : parse { force := .names ["b".toList] } (eventsL [.elem "a".toList [("x".toList, "1".toList)]
      [.elem "b".toList [] [.text "1".toList], .elem "c".toList [] [.text "2".toList]]])
    = some [("a".toList, .dict [("@x".toList, .str "1".toList), ("b".toList, .list [.str "1".toList]),
        ("c".toList, .str "2".toList)])] := by decide +kernel

theorem opened_off {o : O} (hf : o.forceCdata = false) (item : Option Dict) (data : List Str) : opened o item data = item := by
  simp [opened, hf]

/-- The element of a document with a text only. -/
theorem parse_leaf (o : O) (h0 : o.post = none) (hf : o.forceCdata = false) (hs : o.strip = true) (k t : Str) :
    parse o (eventsL [.elem k [] [.text t]])
      = some [(k, if forced o [(k, [])] k (.str (strip isSpace t)) then .list [.str (strip isSpace t)]
          else .str (strip isSpace t))] := by
  rw [parse_eventsL]
  have : attrItem o [(k, [])] [] = none := by simp [attrItem]
  simp [runL, run, this, close, opened, hf, hs, joinWith, pushData_plainPost h0, put, AList.get?, AList.set]

/-- A function is asked for each element, with the path to the element around it. -/
theorem C346_call_partial (f : Path → Str → Val → Bool) (root k t : Str) (v w : Val)
    (hv : v = if f [(root, [])] k (.str (strip isSpace t)) then .list [.str (strip isSpace t)] else .str (strip isSpace t))
    (hw : w = if f [] root (.dict [(k, v)]) then .list [.dict [(k, v)]] else .dict [(k, v)]) :
    parse { force := .call f } (eventsL [.elem root [] [.elem k [] [.text t]]]) = some [(root, w)] := by
  subst hw hv
  rw [parse_eventsL]
  simp only [runL, run, close, opened_off (o := { force := .call f }) rfl, if_true, List.nil_append, List.map]
  rfl

example : parse { force := .call fun p k _ => decide (p = [("a".toList, [])] ∧ k = "b".toList) }
      (eventsL [.elem "a".toList [] [.elem "b".toList [] [.text "1".toList]]])
    = some [("a".toList, .dict [("b".toList, .list [.str "1".toList])])] := by decide +kernel

/-- With a text for `force_list` every name that is a part of it is forced. -/
theorem C346_text_violated (s k t : Str) (hs : s ≠ []) (hp : Part k s) :
    parse { force := .text s } (eventsL [.elem k [] [.text t]]) = some [(k, .list [.str (strip isSpace t)])] := by
  rw [parse_leaf _ rfl rfl rfl, if_pos]
  rw [listed_iff (by simp [NotCall])]
  exact ⟨hs, hp⟩

example : parse { force := .text "items".toList } (eventsL [.elem "item".toList [] [.text "1".toList]])
    = some [("item".toList, .list [.str "1".toList])] := by decide +kernel

/-- With True texts are lists too, while attributes are not. -/
theorem C346_always_violated (k a x t : Str) (ht : strip isSpace t ≠ []) :
    parse { force := .always } (eventsL [.elem k [(a, x)] [.text t]])
      = some [(k, .list [.dict [('@' :: a, .str x), ("#text".toList, .list [.str (strip isSpace t)])]])] := by
  rw [parse_eventsL]
  obtain ⟨c, s, hcs⟩ : ∃ c s, strip isSpace t = c :: s := by
    cases h : strip isSpace t with
    | nil => exact absurd h ht
    | cons c s => exact ⟨c, s, rfl⟩
  simp only [runL, run, close, List.map, opened, if_true, List.nil_append]
  rw [hcs]
  rfl

example : parse { force := .always } (eventsL [.elem "a".toList [("x".toList, "1".toList)] [.text "t".toList]])
    = some [("a".toList, .list [.dict [("@x".toList, .str "1".toList), ("#text".toList, .list [.str "t".toList])]])] := by
  decide +kernel

/-! ### C347: a postprocessor that renames or refuses names acts as if the document had the other names -/

/-- `names` gives the new name, if any. Texts keep their names; comments theirs, or none has any; attributes remain
attributes. What is in the document is what expat delivers: the texts around an element that is refused stay apart. -/
theorem C347_names_partial (o : O) (h0 : o.post = none) (hc : NotCall o.force) (names att : Str → Option Str) (cs : Bool)
    (h1 : names o.textKey = some o.textKey) (h2 : names o.tailKey = some o.tailKey)
    (h3 : names o.commentKey = if cs then some o.commentKey else none)
    (ha : ∀ a, names (o.attrPrefix ++ a) = (att a).map (o.attrPrefix ++ ·)) (doc : List Node) :
    parse { o with post := some fun _ k _ => match names k with
        | none => .drop
        | some k' => .same k' } (eventsL doc)
      = parse o (eventsL (translate names att cs doc)) := by
  rw [parse_eventsL, parse_eventsL]
  exact congrArg Prod.fst (runL_named h0 (blind_of hc) names att cs h1 h2 h3 ha [] [] doc (none, []))

/-- Refuses `b` and `@x`, and renames `c` to `d`. -/
def few : Str → Option Str := fun k =>
  if k = "b".toList ∨ k = "@x".toList then none else if k = "c".toList then some "d".toList else some k

example : (few "#text".toList = some "#text".toList ∧ few "#tail".toList = some "#tail".toList
      ∧ few "#comment".toList = some "#comment".toList)
    ∧ ∀ a, few ("@".toList ++ a) = (if a = "x".toList then none else some a).map ("@".toList ++ ·) := by
  refine ⟨by decide +kernel, fun a => ?_⟩
  by_cases h : a = "x".toList
  · subst h; decide +kernel
  · have e1 : ¬ ('@' :: a = ['b'] ∨ '@' :: a = ['@', 'x']) := by
      rintro (h' | h')
      · simp at h'
      · exact h (by simpa using h')
    have e2 : ¬ ('@' :: a = ['c']) := by simp
    change (if '@' :: a = ['b'] ∨ '@' :: a = ['@', 'x'] then none else if '@' :: a = ['c'] then some "d".toList else some ('@' :: a)) = _
    rw [if_neg e1, if_neg e2, if_neg h]
    rfl

example : parse { post := some fun _ k _ => match few k with
        | none => .drop
        | some k' => .same k' } (eventsL [.elem "a".toList [("x".toList, "1".toList), ("y".toList, "2".toList)]
      [.elem "b".toList [] [.text "1".toList], .elem "c".toList [] [.text "2".toList]]])
    = some [("a".toList, .dict [("@y".toList, .str "2".toList), ("d".toList, .str "2".toList)])] := by decide +kernel

/-- A postprocessor that refuses texts is not asked for the text of an element that has nothing else. -/
theorem C347_text_violated (k t : Str) (hk : k ≠ "#text".toList) :
    parse { post := some fun _ k _ => if k = "#text".toList then .drop else .same k } (eventsL [.elem k [] [.text t]])
      = some [(k, .str (strip isSpace t))] := by
  rw [parse_eventsL]
  simp only [runL, run, close]
  rw [opened_off rfl]
  simp only [attrItem, pushData, List.filterMap_nil, if_true, List.nil_append, List.map, joinWith]
  rw [if_neg hk]
  rfl

example : parse { post := some fun _ k _ => if k = "#text".toList then .drop else .same k }
      (eventsL [.elem "a".toList [("x".toList, "1".toList)] [.text "t".toList]])
    = some [("a".toList, .dict [("@x".toList, .str "1".toList)])] := by decide +kernel

/-- A new value for an element that has a tail is kept, and the tail is lost; the postprocessor is not shown the tail. -/
theorem C347_tail_violated :
    (∃ f : Val → Post, f (.dict [("b".toList, .str []), ("#text".toList, .str "t".toList)]) = .other "a".toList (.str "v".toList)
      ∧ parse { post := some fun _ k v => if k = "a".toList then f v else .same k }
          (eventsL [.elem "a".toList [] [.text "t".toList, .elem "b".toList [] [], .text "u".toList]])
        = some [("a".toList, .str "v".toList)])
    ∧ parse { post := some fun _ k v => if k = "a".toList then (match v with
          | .dict d => if AList.contains d "#tail".toList then .drop else .same k
          | _ => .drop) else .same k }
        (eventsL [.elem "a".toList [] [.text "t".toList, .elem "b".toList [] [], .text "u".toList]])
      = some [("a".toList, .dict [("b".toList, .str []), ("#text".toList, .str "t".toList), ("#tail".toList, .str "u".toList)])] :=
  ⟨⟨fun _ => .other "a".toList (.str "v".toList), rfl, by decide +kernel⟩, by decide +kernel⟩

/-- Two attributes of one new name: the last is kept; two elements of one new name: both are. -/
theorem C347_attributes_violated :
    parse { post := some fun _ k _ => if k = "@x".toList ∨ k = "@y".toList then .same "@z".toList else .same k }
        (eventsL [.elem "a".toList [("x".toList, "1".toList), ("y".toList, "2".toList)] []])
      = some [("a".toList, .dict [("@z".toList, .str "2".toList)])]
    ∧ parse { post := some fun _ k _ => if k = "x".toList ∨ k = "y".toList then .same "z".toList else .same k }
        (eventsL [.elem "a".toList [] [.elem "x".toList [] [.text "1".toList], .elem "y".toList [] [.text "2".toList]]])
      = some [("a".toList, .dict [("z".toList, .list [.str "1".toList, .str "2".toList])])] := by decide +kernel

/-! ### C348: without xml_attribs a document is read as if it had no attributes -/

theorem C348_bare (o : O) (h0 : o.post = none) (hc : NotCall o.force) (doc : List Node) :
    parse { o with attribs := false } (eventsL doc) = parse o (eventsL (bare doc)) := by
  rw [parse_eventsL, parse_eventsL]
  exact congrArg Prod.fst (runL_plain h0 (blind_of hc) [] [] doc (none, []))

example : parse { attribs := false } (eventsL [.elem "a".toList [("x".toList, "1".toList)] [.text "t".toList]])
    = some [("a".toList, .str "t".toList)] := by decide +kernel

/-! ### C349: with force_cdata every text of an element stands under `#text` -/

/-- What is read with `force_cdata` is what is read without, with the texts apart. In the document no two texts follow
each other, and no element is called like texts, comments or attributes. -/
theorem C349_apart_partial (o : O) (h0 : o.post = none) (hc : NotCall o.force) (hf : o.forceCdata = false)
    (ht : ¬ Listed o.force o.textKey) (doc : List Node)
    (hp : Plain [o.textKey, o.tailKey, o.commentKey] o.attrPrefix doc) :
    parse { o with forceCdata := true } (eventsL doc)
      = (parse o (eventsL doc)).map (apartD o.textKey [o.textKey, o.tailKey, o.commentKey] o.attrPrefix) := by
  rw [parse_eventsL, parse_eventsL]
  have h := runL_apart h0 (blind_of hc) hf (by
    rw [← Bool.not_eq_true, listed_iff hc]; exact ht) [] doc hp (none, [])
  exact congrArg Prod.fst h

example : Plain ["#text".toList, "#tail".toList, "#comment".toList] "@".toList [.elem "a".toList [("x".toList, "1".toList)]
    [.text "\n".toList, .elem "b".toList [] [.text "1".toList], .elem "c".toList [] []]] := by
  simp [Plain, PlainN]
  decide +kernel

example : parse { forceCdata := true } (eventsL [.elem "a".toList [("x".toList, "1".toList)]
      [.text "\n".toList, .elem "b".toList [] [.text "1".toList], .elem "c".toList [] []]])
    = some [("a".toList, .dict [("@x".toList, .str "1".toList), ("b".toList, .dict [("#text".toList, .str "1".toList)]),
        ("c".toList, .str [])])] := by decide +kernel

/-- An element without text is an empty text. -/
theorem C349_empty_violated (k t : Str) (ht : strip isSpace t = []) :
    parse { forceCdata := true } (eventsL [.elem k [] [.text t]]) = some [(k, .str [])]
    ∧ parse { forceCdata := true } (eventsL [.elem k [] []]) = some [(k, .str [])] := by
  rw [parse_eventsL, parse_eventsL]
  refine ⟨?_, rfl⟩
  simp only [runL, run, close, opened, if_true, List.nil_append, List.map]
  rw [ht]
  rfl

example : parse { forceCdata := true } (eventsL [.elem "a".toList [] [.text " ".toList]]) = some [("a".toList, .str [])] := by
  decide +kernel

end Verif.XmlOptions
