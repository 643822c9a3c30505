import Verif.Lemmas.XmlNs
/-
XML names, declarations, comments and options: C281-C286.
-/
namespace Verif.XmlNs
open Xml

theorem not_empty {ns : AList Str Str} {k v : Str} (h : ns.get? k = some v) : ns.isEmpty = false := by
  cases ns with
  | nil => simp [AList.get?] at h
  | cons => rfl

theorem strip_marked {s : Str} {c : Char} (h : Inside c s) : strip (fun x => decide (x ∈ [c])) (c :: s) = s := by
  have h1 : lstrip (fun x => decide (x ∈ [c])) (c :: s) = lstrip (fun x => decide (x ∈ [c])) s := by
    simp [lstrip]
  have h2 := strip_inside h
  unfold strip at h2 ⊢
  rw [h1]; exact h2

/-! ### C281: A name in a known namespace is written with what is given for it, other names as they are -/

/-- Elements. -/
theorem C281_element_partial (ns : AList Str Str) (sep pre : Char) {space res name : Str} (h : ns.get? space = some res)
    (hr : res ≠ []) (hn : sep ∉ name) (hi : Inside pre space) :
    elementName ns [sep] [pre] (qualified space sep name) = qualified res sep name := by
  have hp : [pre].isPrefixOf space = false := by
    cases space with
    | nil => rfl
    | cons c s =>
      have : pre ≠ c := fun e => hi.1 (by rw [e]; rfl)
      simp [List.isPrefixOf, this]
  have he : res.isEmpty = false := by cases res <;> simp_all
  simp only [elementName, processNamespace, not_empty h, qualified, cutLast_qualified hn, strip_inside hi, h,
    Option.getD_some, he, hp]
  simp

/-- Attributes. -/
theorem C281_attribute_partial (ns : AList Str Str) (sep pre : Char) {space res name : Str}
    (h : ns.get? space = some res) (hr : res ≠ []) (hn : sep ∉ name) (hi : Inside pre space) :
    attributeName ns [sep] [pre] (pre :: qualified space sep name) = qualified res sep name := by
  have he : res.isEmpty = false := by cases res <;> simp_all
  have hc : Strings.cutLast [sep] (pre :: (space ++ [sep] ++ name)) = some (pre :: space, name) :=
    cutLast_qualified (a := pre :: space) hn
  simp only [attributeName, processNamespace, not_empty h, qualified, hc, strip_marked hi, h, Option.getD_some, he]
  simp [List.isPrefixOf]

/-- Names in no namespace. -/
theorem C281_plain_partial (ns : AList Str Str) (sep pre : Char) {name : Str} (hn : sep ∉ name) (hs : sep ≠ pre) :
    elementName ns [sep] [pre] name = name ∧ attributeName ns [sep] [pre] (pre :: name) = name := by
  have h1 := cutLast_plain hn
  have h2 : Strings.cutLast [sep] (pre :: name) = none := cutLast_plain (by simp [hs, hn])
  simp only [elementName, attributeName, processNamespace, h1, h2]
  constructor <;> split <;> simp

/-- In a namespace nothing is given for, an element loses its namespace, and an attribute also the first letter of its
name. -/
theorem C281_unknown_violated (ns : AList Str Str) (sep pre : Char) {space name : Str} (hne : ns ≠ [])
    (h : ns.get? space = none) (hn : sep ∉ name) (hi : Inside pre space) :
    elementName ns [sep] [pre] (qualified space sep name) = name ∧
      attributeName ns [sep] [pre] (pre :: qualified space sep name) = name.drop 1 := by
  have he : ns.isEmpty = false := by cases ns <;> simp_all
  have hc : Strings.cutLast [sep] (pre :: (space ++ [sep] ++ name)) = some (pre :: space, name) :=
    cutLast_qualified (a := pre :: space) hn
  constructor
  · simp [elementName, processNamespace, he, qualified]
    rw [show space ++ sep :: name = space ++ [sep] ++ name by simp, cutLast_qualified hn]
    have := strip_inside hi
    simp only [List.mem_singleton] at this
    simp [this, h]
  · simp only [attributeName, processNamespace, he, qualified, hc, strip_marked hi, h]
    simp

example : elementName [("u".toList, "p".toList)] [':'] ['@'] "u:a".toList = "p:a".toList := by decide +kernel
example : attributeName [("u".toList, "p".toList)] [':'] ['@'] "@u:a".toList = "p:a".toList := by decide +kernel
example : attributeName [("u".toList, "p".toList)] [':'] ['@'] "@xml:lang".toList = "ang".toList := by decide +kernel
example : attributeName [("u".toList, "p".toList)] [':'] ['@'] "@lang".toList = "lang".toList := by decide +kernel
example : elementName [("u".toList, "p".toList)] [':'] ['@'] (qualified "v".toList ':' "a".toList) = "a".toList :=
  (C281_unknown_violated _ ':' '@' (by decide +kernel) (by decide +kernel) (by decide +kernel) (by decide +kernel)).1

/-! ### C282: A name read with namespaces is written back as it was -/

/-- So it is if the namespace has a name, and writing gives that name the namespace. -/
theorem C282_known_partial (read write : AList Str Str) (inv : Inverse read write) (sep pre : Char)
    {space short name : Str} (h : read.get? space = some short) (hs : short ≠ []) (hne : space ≠ []) (hn : sep ∉ name)
    (hi : Inside pre short) :
    elementName write [sep] [pre] (buildName (some read) [sep] (qualified space sep name)) = qualified space sep name ∧
    attributeName write [sep] [pre] (pre :: buildName (some read) [sep] (qualified space sep name)) =
      qualified space sep name := by
  have he : short.isEmpty = false := by cases short <;> simp_all
  have hb : buildName (some read) [sep] (qualified space sep name) = qualified short sep name := by
    simp only [buildName, qualified, cutLast_qualified hn, drop_qualified, h, Option.getD_some, he]
    simp
  rw [hb]
  exact ⟨C281_element_partial write sep pre (inv _ _ h) hne hn hi, C281_attribute_partial write sep pre (inv _ _ h) hne hn hi⟩

/-- A name in no namespace is read and written as it is. -/
theorem C282_plain_partial (read write : AList Str Str) (sep pre : Char) {name : Str} (hn : sep ∉ name) (hs : sep ≠ pre) :
    elementName write [sep] [pre] (buildName (some read) [sep] name) = name ∧
      attributeName write [sep] [pre] (pre :: buildName (some read) [sep] name) = name := by
  have hb : buildName (some read) [sep] name = name := by simp only [buildName, cutLast_plain hn]
  rw [hb]
  exact C281_plain_partial write sep pre hn hs

/-- A name in a namespace that has no name is read as it is and written without the namespace. -/
theorem C282_unknown_violated (read write : AList Str Str) (sep pre : Char) {space name : Str} (hne : space ≠ [])
    (hw : write ≠ []) (h : read.get? space = none) (h' : write.get? space = none) (hn : sep ∉ name)
    (hi : Inside pre space) :
    buildName (some read) [sep] (qualified space sep name) = qualified space sep name ∧
      elementName write [sep] [pre] (buildName (some read) [sep] (qualified space sep name)) = name := by
  have he : space.isEmpty = false := by cases space <;> simp_all
  have hb : buildName (some read) [sep] (qualified space sep name) = qualified space sep name := by
    simp only [buildName, qualified, cutLast_qualified hn, drop_qualified, h, Option.getD_none, he]
    simp
  exact ⟨hb, by rw [hb]; exact (C281_unknown_violated write sep pre hw h' hn hi).1⟩

example : buildName (some [("http://a/".toList, "a".toList)]) [':'] "http://a/:x".toList = "a:x".toList := by decide +kernel
example : elementName [("a".toList, "http://a/".toList)] [':'] ['@'] "a:x".toList = "http://a/:x".toList := by decide +kernel
example : Inverse [("u".toList, "a".toList)] [("a".toList, "u".toList)] := by
  intro space short h
  simp only [AList.get?] at h
  split at h
  · rename_i e; cases h; subst e; decide +kernel
  · cases h

/-! ### C283: Different names stay different when they are read -/

theorem buildName_qualified (read : AList Str Str) (sep : Char) {space name : Str} (hn : sep ∉ name) :
    buildName (some read) [sep] (qualified space sep name) =
      if readAs read space = [] then name else qualified (readAs read space) sep name := by
  simp only [buildName, qualified, cutLast_qualified hn, drop_qualified, readAs]
  have h : ∀ x : Str, (if x.isEmpty = true then name else x ++ [sep] ++ name) =
      if x = [] then name else x ++ [sep] ++ name := fun x => by cases x <;> simp
  exact h _

/-- So they do if the two namespaces are read with different names, none of them empty. -/
theorem C283_distinct_partial (read : AList Str Str) (sep : Char) {s1 s2 n1 n2 : Str} (h1 : sep ∉ n1) (h2 : sep ∉ n2)
    (hi : readAs read s1 = readAs read s2 → s1 = s2) (he1 : readAs read s1 ≠ []) (he2 : readAs read s2 ≠ [])
    (h : buildName (some read) [sep] (qualified s1 sep n1) = buildName (some read) [sep] (qualified s2 sep n2)) :
    qualified s1 sep n1 = qualified s2 sep n2 := by
  rw [buildName_qualified read sep h1, buildName_qualified read sep h2, if_neg he1, if_neg he2] at h
  have e1 := cutLast_qualified (a := readAs read s1) h1
  have e2 := cutLast_qualified (a := readAs read s2) h2
  unfold qualified at h
  rw [h, e2] at e1
  have e := Prod.mk.inj (Option.some.inj e1)
  rw [hi e.1.symm, e.2]

/-- A name in no namespace stays different from one in a namespace whose name is not empty. -/
theorem C283_plain_partial (read : AList Str Str) (sep : Char) {s n m : Str} (h1 : sep ∉ n) (h2 : sep ∉ m)
    (he : readAs read s ≠ []) : buildName (some read) [sep] (qualified s sep n) ≠ buildName (some read) [sep] m := by
  intro h
  rw [buildName_qualified read sep h1, if_neg he] at h
  have hb : buildName (some read) [sep] m = m := by simp only [buildName, cutLast_plain h2]
  rw [hb] at h
  exact h2 (by rw [← h]; simp [qualified])

/-- Two namespaces read with the same name are confused, and so is a namespace read with the empty name with none. -/
theorem C283_confused_violated (read : AList Str Str) (sep : Char) {s1 s2 n : Str} (hn : sep ∉ n)
    (h : readAs read s1 = readAs read s2) :
    buildName (some read) [sep] (qualified s1 sep n) = buildName (some read) [sep] (qualified s2 sep n) ∧
      (readAs read s1 = [] → buildName (some read) [sep] (qualified s1 sep n) = buildName (some read) [sep] n) := by
  have hb : buildName (some read) [sep] n = n := by simp only [buildName, cutLast_plain hn]
  refine ⟨by rw [buildName_qualified read sep hn, buildName_qualified read sep hn, h], fun he => ?_⟩
  rw [buildName_qualified read sep hn, if_pos he, hb]

example : buildName (some [("http://a/".toList, "b".toList)]) [':'] "http://a/:x".toList =
    buildName (some [("http://a/".toList, "b".toList)]) [':'] "b:x".toList := by decide +kernel
example : buildName (some [("http://a/".toList, [])]) [':'] "http://a/:x".toList = "x".toList := by decide +kernel
example : readAs [("u".toList, "a".toList)] "v".toList ≠ [] ∧
    readAs [("u".toList, "a".toList)] "u".toList ≠ readAs [("u".toList, "a".toList)] "v".toList := by decide +kernel

/-! ### C284: An element is given the namespaces it declares -/

theorem declare_nil (l : List (Str × Str)) (h : AList.WF l) : declare [] l = l := by
  have : ∀ (a b : AList Str Str), AList.WF (a ++ b) → b.foldl (fun d p => d.set p.1 p.2) a = a ++ b := by
    intro a b
    induction b generalizing a with
    | nil => intro _; simp
    | cons p b ih =>
      intro hw
      have hk : p.1 ∉ AList.keys a := by
        intro hm
        simp only [AList.WF, AList.keys, List.map_append, List.map_cons, List.nodup_append] at hw
        exact hw.2.2 _ hm p.1 (by simp) rfl
      have hset : AList.set a p.1 p.2 = a ++ [p] := by
        clear ih hw
        induction a with
        | nil => rfl
        | cons q a ih =>
          have h1 : q.1 ≠ p.1 := fun e => hk (by simp [AList.keys, e])
          have h2 : p.1 ∉ AList.keys a := fun m => hk (by simp only [AList.keys, List.map_cons]; exact List.mem_cons_of_mem _ m)
          simp [AList.set, h1, ih h2]
      rw [List.foldl_cons, hset, ih (a ++ [p]) (by simpa using hw)]
      simp
  exact this [] l h

/-- So it is in a document where every element that declares namespaces has attributes, each prefix declared once. -/
theorem C284_own_partial (els : List (List (Str × Str) × AList Str Str)) (hw : ∀ e ∈ els, AList.WF e.1)
    (h : ∀ e ∈ els, e.1 ≠ [] → e.2 ≠ []) : xmlns [] els = declared els := by
  induction els with
  | nil => rfl
  | cons e els ih =>
    obtain ⟨decls, attrs⟩ := e
    have hd := declare_nil decls (hw _ List.mem_cons_self)
    have ih := ih (fun e he => hw e (List.mem_cons_of_mem _ he)) (fun e he => h e (List.mem_cons_of_mem _ he))
    have h0 := h _ List.mem_cons_self
    simp only [xmlns, hd, declared, List.map_cons]
    by_cases hn : decls = []
    · subst hn
      simp only [take, if_true]
      simp only [List.isEmpty_nil, Bool.not_true, Bool.and_false, Bool.false_eq_true, if_false]
      rw [ih]; rfl
    · have ha := h0 hn
      have e1 : decls.isEmpty = false := by cases decls <;> simp_all
      have e2 : attrs.isEmpty = false := by cases attrs <;> simp_all
      simp only [take, e1, e2, if_neg hn]
      simp only [Bool.not_false, Bool.and_self, if_true]
      rw [ih]; rfl

/-- An element without attributes is not given what it declares: the next element with attributes is. -/
theorem C284_next_violated (decls decls' : List (Str × Str)) (attrs : AList Str Str)
    (els : List (List (Str × Str) × AList Str Str)) (hd : decls ≠ []) (hw : AList.WF (decls ++ decls'))
    (ha : attrs ≠ []) :
    xmlns [] ((decls, []) :: (decls', attrs) :: els) = none :: some (decls ++ decls') :: xmlns [] els := by
  have hw1 : AList.WF decls := by
    simp only [AList.WF, AList.keys, List.map_append, List.nodup_append] at hw ⊢
    exact hw.1
  have h2 : declare decls decls' = decls ++ decls' := by
    rw [← declare_nil (decls ++ decls') hw, declare, declare, List.foldl_append]
    rw [show List.foldl (fun d p => AList.set d p.1 p.2) [] decls = decls from declare_nil decls hw1]
  have e2 : attrs.isEmpty = false := by cases attrs <;> simp_all
  have e1 : (decls ++ decls').isEmpty = false := by cases decls <;> simp_all
  have h1 : declare [] decls = decls := declare_nil decls hw1
  have t1 : take decls [] = (none, decls) := rfl
  have t2 : take (decls ++ decls') attrs = (some (decls ++ decls'), []) := by
    simp only [take, e1, e2]; rfl
  simp only [xmlns, h1, t1, h2, t2]

/-- If no element has attributes, no declaration is kept. -/
theorem C284_lost_violated (els : List (List (Str × Str) × AList Str Str)) (h : ∀ e ∈ els, e.2 = [])
    (pending : AList Str Str) : ∀ x ∈ xmlns pending els, x = none := by
  induction els generalizing pending with
  | nil => intro x hx; cases hx
  | cons e els ih =>
    obtain ⟨decls, attrs⟩ := e
    have ha : attrs = [] := h _ List.mem_cons_self
    subst ha
    intro x hx
    simp only [xmlns] at hx
    have t : ∀ d : AList Str Str, take d ([] : AList Str Str) = (none, d) := fun d => rfl
    rw [t] at hx
    rcases List.mem_cons.1 hx with e | e
    · exact e
    · exact ih (fun e he => h e (List.mem_cons_of_mem _ he)) _ x e

example : xmlns [] [([("p".toList, "u".toList)], []), ([], [("a".toList, "1".toList)])] =
    [none, some [("p".toList, "u".toList)]] := by decide +kernel
example : xmlns [] [([("p".toList, "u".toList)], [("a".toList, "1".toList)]), ([], [])] =
    [some [("p".toList, "u".toList)], none] := by decide +kernel

/-! ### C285: Reading comments changes nothing else -/

/-- So it is if comments stand only among elements, or in elements that have attributes, without words beside them. -/
theorem C285_records_partial (fl : Str → Bool) (ns : List Node) (ht : TidyL ns) (he : ns.any Node.isElem = true) :
    (parse fl true (eventsL ns)).map uncommentD = parse fl false (eventsL ns) := by
  have hr : Rel (runL fl true ns ([], none, [])).2.1 (runL fl false ns ([], none, [])).2.1 :=
    runL_rel fl ns ht _ _ ⟨rfl, id⟩
  have h1 := some_runL fl true ns ([], none, []) (.inr he)
  have h2 := some_runL fl false ns ([], none, []) (.inr he)
  simp only [parse, feed_eventsL]
  obtain ⟨a, ha⟩ := Option.isSome_iff_exists.1 h1
  obtain ⟨b, hb⟩ := Option.isSome_iff_exists.1 h2
  have := hr.1
  rw [ha, hb] at this ⊢
  simpa using this

/-- A text with a comment behind it becomes a dictionary. -/
theorem C285_text_violated (name : Str) (t c : Str) (hn : name ≠ kComment) (ht : strip isSpace t ≠ []) :
    parse (fun _ => false) false (eventsL [.elem name [] [.text t, .comment c]]) =
      some [(name, .str (strip isSpace t))] ∧
    parse (fun _ => false) true (eventsL [.elem name [] [.text t, .comment c]]) =
      some [(name, .dict [("#comment".toList, .str (strip isSpace c)), ("#text".toList, .str (strip isSpace t))])] := by
  change _ ∧ parse (fun _ => false) true (eventsL [.elem name [] [.text t, .comment c]]) =
    some [(name, .dict [(kComment, .str (strip isSpace c)), (kText, .str (strip isSpace t))])]
  have hne : t ≠ [] := by rintro rfl; exact ht rfl
  obtain ⟨x, xs, hx⟩ : ∃ x xs, strip isSpace t = x :: xs := by
    cases h : strip isSpace t with
    | nil => exact absurd h ht
    | cons x xs => exact ⟨x, xs, rfl⟩
  have hk : kComment ≠ kText := by decide
  simp only [parse, feed_eventsL, runL, Node.run, attrItem, pieces, closeVal]
  constructor
  · simp [hne, hx, pushData, AList.get?, AList.set]
  · simp [hne, hx, pushData, pushText, AList.get?, AList.set, hk]

/-- And the text after it goes elsewhere. -/
theorem C285_tail_violated :
    ∃ ns, parse (fun _ => false) false (eventsL ns) = some [("a".toList, .str "xy".toList)] ∧
      parse (fun _ => false) true (eventsL ns) = some [("a".toList,
        .dict [(kComment, .str "c".toList), (kText, .str "x".toList), (kTail, .str "y".toList)])] :=
  ⟨[.elem "a".toList [] [.text "x".toList, .comment "c".toList, .text "y".toList]], by rfl, by rfl⟩

example : TidyL [.comment "top".toList, .elem "a".toList [("k".toList, "1".toList)]
    [.text "\n".toList, .comment "c".toList, .elem "b".toList [] [.text "x".toList]]] := by
  simp [TidyL, Node.Tidy, Record, Node.isElem, Node.isWord, Node.isComment]
  decide +kernel
example : parse (fun _ => false) true (eventsL [.elem "a".toList []
    [.comment "c".toList, .elem "b".toList [] [.text "x".toList]]]) =
    some [("a".toList, .dict [(kComment, .str "c".toList), ("b".toList, .str "x".toList)])] := by rfl
example : parse (fun _ => false) false (eventsL [.elem "a".toList []
    [.comment "c".toList, .elem "b".toList [] [.text "x".toList]]]) =
    some [("a".toList, .dict [("b".toList, .str "x".toList)])] := by rfl

/-! ### C286: The options of a call override those of the deserialiser -/

/-- The separator, the option for entities and the tags of lists do. -/
theorem C286_options_partial (self : Opts) (opts : AList Str Val) (v : Val) :
    (opts.get? "namespace_separator".toList = some v → (options self opts).separator = v) ∧
    (opts.get? "disable_entities".toList = some v → (options self opts).entities = v) ∧
    (opts.get? "force_list".toList = some v → (options self opts).forceList = v) ∧
    (opts = [] → options self opts = self) := by
  refine ⟨?_, ?_, ?_, ?_⟩ <;> intro h
  · simp only [options, opt, h, Option.getD_some]
  · simp only [options, opt, h, Option.getD_some]
  · simp only [options, opt, h, Option.getD_some]
  · subst h; rfl

/-- Those for namespaces and comments do not: whatever is given for them, the result is the same; the prefix of
attributes is taken for both. -/
theorem C286_ignored_violated (self : Opts) (opts : AList Str Val) (v : Val) :
    options self (opts.set "process_namespaces".toList v) = options self opts ∧
    options self (opts.set "process_comments".toList v) = options self opts ∧
    (opts.get? "attr_prefix".toList = some v →
      (options self opts).namespaces = v ∧ (options self opts).comments = v) := by
  refine ⟨?_, ?_, fun h => ?_⟩
  · simp only [options, opt]
    repeat rw [AList.get?_set_ne _ _ (by decide +kernel)]
  · simp only [options, opt]
    repeat rw [AList.get?_set_ne _ _ (by decide +kernel)]
  · simp only [options, opt, h, Option.getD_some, and_self]

example : options ⟨.bool false, .str [':'], .bool true, .bool false, .list []⟩
    [("process_comments".toList, .bool true)] = ⟨.bool false, .str [':'], .bool true, .bool false, .list []⟩ := by
  decide +kernel
example : (options ⟨.bool false, .str [':'], .bool true, .bool false, .list []⟩
    [("attr_prefix".toList, .str "-".toList)]).comments = .str "-".toList := by decide +kernel

end Verif.XmlNs
