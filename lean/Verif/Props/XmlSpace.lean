import Verif.Lemmas.XmlOptions
import Verif.Lemmas.Xml
import Verif.Spec.XmlSpace
/-
C352-C353: white space in XML.
-/
namespace Verif.XmlSpace
open XmlNs
open Xml (Dict)

theorem lstrip_split (s : Str) : ∃ b, s = b ++ lstrip isSpace s ∧ Xml.AllSpace b := by
  induction s with
  | nil => exact ⟨[], rfl, by simp [Xml.AllSpace]⟩
  | cons c s ih =>
    obtain ⟨b, h1, h2⟩ := ih
    by_cases hc : isSpace c = true
    · refine ⟨c :: b, ?_, ?_⟩
      · rw [lstrip, List.dropWhile_cons, if_pos hc, List.cons_append, ← lstrip, ← h1]
      · intro x hx
        rcases List.mem_cons.1 hx with rfl | hx
        · exact hc
        · exact h2 x hx
    · exact ⟨[], by rw [lstrip, List.dropWhile_cons, if_neg hc]; rfl, by simp [Xml.AllSpace]⟩

theorem strip_strip (s : Str) : strip isSpace (strip isSpace s) = strip isSpace s := by
  obtain ⟨a, h1, h2⟩ := lstrip_split s
  obtain ⟨b, h3, h4⟩ := lstrip_split (lstrip isSpace s).reverse
  have h5 : lstrip isSpace s = strip isSpace s ++ b.reverse := by
    have := congrArg List.reverse h3
    rw [List.reverse_reverse, List.reverse_append] at this
    exact this
  have h6 : Xml.AllSpace b.reverse := fun c hc => h4 c (List.mem_reverse.1 hc)
  conv => rhs; rw [h1, Xml.strip_left h2, h5, Xml.strip_right h6]

section Reading
open XmlOptions

theorem runL_texts (o : O) (p : Path) (ns : List Node) (i : Option Dict) (d : List Str) :
    (XmlOptions.runL o p ns (i, d)).2 = d ++ texts ns := by
  induction ns generalizing i d with
  | nil => simp [XmlOptions.runL, texts]
  | cons n ns ih =>
    cases n <;> simp only [XmlOptions.runL, run, texts] <;> rw [ih] <;> simp

theorem flatten_blank (r : List Str) (h : ∀ x ∈ r, strip isSpace x = []) : (r.map (strip isSpace)).flatten = [] := by
  induction r with
  | nil => rfl
  | cons x r ih =>
    simp only [List.map_cons, List.flatten_cons, h x (by simp), List.nil_append]
    exact ih (fun y hy => h y (by simp [hy]))

theorem joinWith_nil (l : List Str) : joinWith [] l = l.flatten := by
  induction l with
  | nil => rfl
  | cons x l ih =>
    cases l with
    | nil => simp [joinWith]
    | cons y l => rw [joinWith, ih] <;> simp

/-- What an element becomes depends on its text without the white space. -/
theorem close_oneText (o : O) (hs : o.strip = true) (hj : o.separator = []) (p : Path) (name t : Str) (item : Option Dict)
    (data : List Str) (parent : Option Dict) (h : OneText t data) :
    close o p name item data parent = close o p name item [t] parent := by
  have hss : ∀ x : Str, strip isSpace (strip isSpace x) = strip isSpace x := fun x => strip_strip x
  unfold close
  simp only [hs, if_true, hj, joinWith_nil]
  cases data with
  | nil =>
    cases h
    simp [opened, Xml.strip_nil, pushText]
  | cons s r =>
    obtain ⟨h1, h2⟩ := h
    have ht : strip isSpace t = t := by rw [← h1]; exact hss s
    have e1 : (List.map (strip isSpace) (s :: r))[0]? = some t := by simp [h1]
    have e2 : ((List.map (strip isSpace) (s :: r))[1]?).getD [] = [] := by
      cases r with
      | nil => rfl
      | cons x r => simp [h2 x (by simp)]
    have e3 : ∀ it, pushText o p it o.tailKey (List.map (strip isSpace) (s :: r))[1]? = it := by
      intro it
      cases r with
      | nil => rfl
      | cons x r => simp [h2 x (by simp), pushText]
    have e4 : (List.map (strip isSpace) (s :: r)).flatten = t := by
      simp [h1, flatten_blank r h2]
    have f1 : (List.map (strip isSpace) [t])[0]? = some t := by simp [ht]
    have f2 : (List.map (strip isSpace) [t])[1]? = none := by simp
    have f4 : (List.map (strip isSpace) [t]).flatten = t := by simp [ht]
    have ho : opened o item (List.map (strip isSpace) (s :: r)) = opened o item (List.map (strip isSpace) [t]) := by
      unfold opened
      rw [e1, e2, f1, f2]
      rfl
    rw [ho]
    cases opened o item (List.map (strip isSpace) [t]) with
    | some it =>
      simp only [e1, e3, f1, f2]
      rfl
    | none => simp only [e4, f4]

mutual
theorem run_alike (o : O) (hs : o.strip = true) (hj : o.separator = []) {n n' : Node} : Alike n n' →
    ∀ (p : Path) (i : Option Dict) (d d' : List Str), (XmlOptions.run o p n (i, d)).1 = (XmlOptions.run o p n' (i, d')).1
  | .comment s, p, i, d, d' => rfl
  | .elem name attrs t c c' h1 h2 h, p, i, d, d' => by
    simp only [XmlOptions.run]
    rw [close_oneText o hs hj _ _ t _ _ _ (by rw [runL_texts]; simpa using h1),
      close_oneText o hs hj _ _ t _ (XmlOptions.runL o (p ++ [(name, attrs)]) c' _).2 _ (by rw [runL_texts]; simpa using h2),
      runL_alike o hs hj h _ _ [] []]
theorem runL_alike (o : O) (hs : o.strip = true) (hj : o.separator = []) {ns ms : List Node} : AlikeL ns ms →
    ∀ (p : Path) (i : Option Dict) (d d' : List Str), (XmlOptions.runL o p ns (i, d)).1 = (XmlOptions.runL o p ms (i, d')).1
  | .nil, p, i, d, d' => rfl
  | .left s c c' h, p, i, d, d' => by simp only [XmlOptions.runL, run]; exact runL_alike o hs hj h p i _ _
  | .right s c c' h, p, i, d, d' => by simp only [XmlOptions.runL, run]; exact runL_alike o hs hj h p i _ _
  | .cons n n' c c' h1 h, p, i, d, d' => by
    simp only [XmlOptions.runL]
    have := run_alike o hs hj h1 p i d d'
    rw [show XmlOptions.run o p n (i, d) = ((XmlOptions.run o p n (i, d)).1, (XmlOptions.run o p n (i, d)).2) from rfl,
      show XmlOptions.run o p n' (i, d') = ((XmlOptions.run o p n' (i, d')).1, (XmlOptions.run o p n' (i, d')).2) from rfl, this]
    exact runL_alike o hs hj h p _ _ _
end

/-- **C352.** When texts are stripped: two documents that differ in white space only (around the text of an element and
between elements and comments) are read as the same, whatever the other options are. The texts of an element are joined by
nothing, and an element has one text at most that is not white space, which is its first. -/
theorem C352_white_space_partial (o : O) (hs : o.strip = true) (hj : o.separator = []) (doc doc' : List Node) (h : AlikeL doc doc') :
    parse o (eventsL doc) = parse o (eventsL doc') := by
  rw [parse_eventsL, parse_eventsL]
  exact runL_alike o hs hj h [] none [] []

example : AlikeL [.elem "a".toList [] [.text "t".toList, .elem "b".toList [] [], .elem "b".toList [] [.text "u v".toList]]]
    [.elem "a".toList [] [.text " t\n".toList, .elem "b".toList [] [.text " ".toList], .text "\n".toList,
      .elem "b".toList [] [.text " u v ".toList], .text "\n".toList]] := by
  refine .cons _ _ _ _ (.elem _ _ "t".toList _ _ ?_ ?_ ?_) .nil
  · exact ⟨by decide +kernel, by decide +kernel⟩
  · exact ⟨by decide +kernel, by decide +kernel⟩
  · refine .left _ _ _ (.right _ _ _ (.cons _ _ _ _ (.elem _ _ [] _ _ ?_ ?_ (.right _ _ _ .nil))
      (.right _ _ _ (.cons _ _ _ _ (.elem _ _ "u v".toList _ _ ?_ ?_ (.left _ _ _ (.right _ _ _ .nil))) (.right _ _ _ .nil)))))
    · rfl
    all_goals exact ⟨by decide +kernel, by decide +kernel⟩

/-- **C352, violated.** The text after a child: white space before the child makes it the tail, which is the text without.
White space between two children makes it disappear. -/
theorem C352_tail_violated (a b u w : Str) (hb : Xml.GoodName b) (hu : strip isSpace u ≠ []) (hw : strip isSpace w = []) :
    XmlOptions.parse {} (eventsL [.elem a [] [.elem b [] [], .text u]])
      = some [(a, .dict [(b, .str []), ("#text".toList, .str (strip isSpace u))])] ∧
    XmlOptions.parse {} (eventsL [.elem a [] [.text w, .elem b [] [], .text u]])
      = some [(a, .dict [(b, .str []), ("#tail".toList, .str (strip isSpace u))])] ∧
    XmlOptions.parse {} (eventsL [.elem a [] [.text w, .elem b [] [], .text w, .elem b [] [], .text u]])
      = some [(a, .dict [(b, .list [.str [], .str []])])] := by
  have h1 : b ≠ ['#', 't', 'e', 'x', 't'] := by rintro rfl; exact hb.2 rfl
  have h2 : b ≠ ['#', 't', 'a', 'i', 'l'] := by rintro rfl; exact hb.2 rfl
  obtain ⟨c, s, hcs⟩ : ∃ c s, strip isSpace u = c :: s := by
    cases h : strip isSpace u with
    | nil => exact absurd h hu
    | cons c s => exact ⟨c, s, rfl⟩
  refine ⟨?_, ?_, ?_⟩
  all_goals
    rw [XmlOptions.parse_eventsL]
    simp only [XmlOptions.runL, XmlOptions.run, XmlOptions.close, XmlOptions.opened, XmlOptions.attrItem, List.nil_append, List.map,
      hcs, hw, XmlOptions.pushData, XmlOptions.put, XmlOptions.pushText, XmlOptions.forced,
      List.cons_append]
    simp [AList.get?, AList.set, h1, h2, XmlOptions.pushText, joinWith]

example : Xml.GoodName "b".toList ∧ strip isSpace " u".toList ≠ [] ∧ strip isSpace "\n".toList = [] := by
  unfold Xml.GoodName; decide +kernel

theorem texts_trim (ns : List Node) : texts (trim ns) = (texts ns).map (strip isSpace) := by
  induction ns with
  | nil => rfl
  | cons n ns ih => cases n <;> simp [trim, trimmed, texts, ih]

mutual
theorem run_trimmed (o : O) (p : Path) (n : Node) (i : Option Dict) (d d' : List Str) :
    (XmlOptions.run { o with strip := true } p n (i, d)).1 = (XmlOptions.run { o with strip := false } p (trimmed n) (i, d')).1 := by
  cases n with
  | text s => rfl
  | comment s => rfl
  | elem name attrs content =>
    simp only [XmlOptions.run, trimmed]
    have h1 := runL_texts { o with strip := true } (p ++ [(name, attrs)]) content (attrItem o (p ++ [(name, attrs)]) attrs) []
    have h2 := runL_texts { o with strip := false } (p ++ [(name, attrs)]) (trim content) (attrItem o (p ++ [(name, attrs)]) attrs) []
    have h3 := runL_trim o (p ++ [(name, attrs)]) content (attrItem o (p ++ [(name, attrs)]) attrs) [] []
    rw [texts_trim] at h2
    rw [List.nil_append] at h1 h2
    show close _ _ _ (XmlOptions.runL { o with strip := true } _ content (attrItem o _ attrs, [])).1
        (XmlOptions.runL { o with strip := true } _ content (attrItem o _ attrs, [])).2 i
      = close _ _ _ (XmlOptions.runL { o with strip := false } _ (trim content) (attrItem o _ attrs, [])).1
        (XmlOptions.runL { o with strip := false } _ (trim content) (attrItem o _ attrs, [])).2 i
    rw [h1, h2, h3]
    rfl
theorem runL_trim (o : O) (p : Path) (ns : List Node) (i : Option Dict) (d d' : List Str) :
    (XmlOptions.runL { o with strip := true } p ns (i, d)).1 = (XmlOptions.runL { o with strip := false } p (trim ns) (i, d')).1 := by
  cases ns with
  | nil => rfl
  | cons n ns =>
    simp only [XmlOptions.runL, trim]
    have := run_trimmed o p n i d d'
    rw [show XmlOptions.run { o with strip := true } p n (i, d) = ((XmlOptions.run { o with strip := true } p n (i, d)).1,
        (XmlOptions.run { o with strip := true } p n (i, d)).2) from rfl,
      show XmlOptions.run { o with strip := false } p (trimmed n) (i, d') = ((XmlOptions.run { o with strip := false } p (trimmed n) (i, d')).1,
        (XmlOptions.run { o with strip := false } p (trimmed n) (i, d')).2) from rfl, this]
    exact runL_trim o p ns _ _ _
end

/-- **C354.** With `strip_whitespace` a document is read as the document with its texts and comments stripped is read without it,
whatever the other options are: nothing else is changed, attributes and white space inside texts in particular. -/
theorem C354_strip_whitespace (o : O) (doc : List Node) :
    parse { o with strip := true } (eventsL doc) = parse { o with strip := false } (eventsL (trim doc)) := by
  rw [parse_eventsL, parse_eventsL]
  exact runL_trim o [] doc none [] []

/-- **C354.** Without it the text of an element is kept as it is. -/
theorem C354_text_is_kept (name t : Str) (attrs : AList Str Str) (h : attrs ≠ []) (ht : t ≠ []) (hk : (AList.keys attrs).Nodup) :
    parse { strip := false } (eventsL [.elem name [] [.text t]]) = some [(name, .str t)] ∧
    parse { strip := false } (eventsL [.elem name attrs [.text t]])
      = some [(name, .dict (attrs.map (fun a => ('@' :: a.1, Val.str a.2)) ++ [("#text".toList, .str t)]))] := by
  constructor
  · rw [parse_eventsL]
    simp [XmlOptions.runL, XmlOptions.run, XmlOptions.close, XmlOptions.opened, XmlOptions.attrItem, XmlOptions.pushData,
      XmlOptions.put, XmlOptions.forced, joinWith, AList.get?, AList.set]
  · rw [parse_eventsL]
    have hat : attrItem { strip := false } [(name, attrs)] attrs = some (attrs.map (fun a => ('@' :: a.1, Val.str a.2))) := by
      unfold attrItem
      simp only [if_true]
      have : attrs.filterMap (attr { strip := false } [(name, attrs)]) = attrs.map (fun a => ('@' :: a.1, Val.str a.2)) := by
        rw [← List.filterMap_eq_map]
        rfl
      rw [this]
      cases attrs with
      | nil => exact absurd rfl h
      | cons a l =>
        simp only [List.map_cons]
        congr 1
        rw [← List.map_cons (f := fun a : Str × Str => ('@' :: a.1, Val.str a.2))]
        apply Xml.update_nil_of_nodup
        rw [Xml.keys_attrs]
        exact Xml.nodup_map_cons _ hk
    have hn : Xml.kText ∉ AList.keys (attrs.map (fun a => ('@' :: a.1, Val.str a.2))) := by
      rw [Xml.keys_attrs]; exact Xml.not_mem_at_kText _
    cases t with
    | nil => exact absurd rfl ht
    | cons c s =>
      simp only [XmlOptions.runL, XmlOptions.run, List.nil_append, XmlOptions.close, hat]
      simp only [XmlOptions.opened, Bool.false_eq_true, false_and, and_false, if_false]
      have hp : XmlOptions.pushText { strip := false } [(name, attrs)] (attrs.map (fun a => ('@' :: a.1, Val.str a.2))) "#text".toList
          (some (c :: s)) = attrs.map (fun a => ('@' :: a.1, Val.str a.2)) ++ [("#text".toList, .str (c :: s))] := by
        have e := AList.get?_eq_none.2 hn
        have e' := Xml.set_of_notMem (Val.str (c :: s)) hn
        simp only [Xml.kText] at e e'
        simp only [XmlOptions.pushText, XmlOptions.pushData, XmlOptions.put, Option.getD_some, XmlOptions.forced, e, e',
          Bool.false_eq_true, if_false]
      simp only [List.getElem?_cons_zero, hp]
      rfl

example : parse { strip := true } (eventsL [.elem "a".toList [("x".toList, " 1 ".toList)] [.text " t  u\n".toList]])
    = some [("a".toList, .dict [("@x".toList, .str " 1 ".toList), ("#text".toList, .str "t  u".toList)])] := by decide +kernel

end Reading

section Writing
open Xml

/-- The texts so far of an element: the first is `t` apart from white space, the others are white space. -/
def Inv (t : Str) (data : List Str) (buf : Str) : Prop :=
  (data = [] ∧ strip isSpace buf = t) ∨ (∃ x r, data = x :: r ∧ strip isSpace x = t ∧ (∀ y ∈ r, AllSpace y) ∧ AllSpace buf)

theorem inv_ws {t : Str} {data : List Str} {buf s : Str} (h : Inv t data buf) (hs : AllSpace s) : Inv t data (buf ++ s) := by
  rcases h with ⟨h1, h2⟩ | ⟨x, r, h1, h2, h3, h4⟩
  · exact .inl ⟨h1, by rw [strip_right hs]; exact h2⟩
  · refine .inr ⟨x, r, h1, h2, h3, fun c hc => ?_⟩
    rcases List.mem_append.1 hc with hc | hc
    · exact h4 c hc
    · exact hs c hc

theorem inv_flush {t : Str} {data : List Str} {buf : Str} (h : Inv t data buf) : Inv t (pieces data buf) [] := by
  unfold pieces
  rcases h with ⟨h1, h2⟩ | ⟨x, r, h1, h2, h3, h4⟩
  · subst h1
    by_cases hb : buf = []
    · subst hb; exact .inl ⟨by simp, h2⟩
    · exact .inr ⟨buf, [], by simp [hb], h2, by simp, by simp [AllSpace]⟩
  · subst h1
    refine .inr ⟨x, r ++ (if buf = [] then [] else [buf]), by simp, h2, ?_, by simp [AllSpace]⟩
    intro y hy
    rcases List.mem_append.1 hy with hy | hy
    · exact h3 y hy
    · split at hy
      · cases hy
      · rw [List.mem_singleton.1 hy]; exact h4

theorem strip_space {s : Str} (h : AllSpace s) : strip isSpace s = [] := by
  have := strip_right (a := []) h
  rw [List.nil_append] at this
  rw [this]; rfl

/-- The end of an element does not see the white space. -/
theorem end_inv (fl : Str → Bool) (name t : Str) {data data' : List Str} (item : Option Dict) (st st' : List (Option Dict × List Str))
    (p : Option Dict) (pd pd' : List Str) (h : Inv t data []) (h' : Inv t data' []) :
    ∃ i, endElement fl ⟨item, data, (p, pd) :: st⟩ name = ⟨i, pd, st⟩ ∧ endElement fl ⟨item, data', (p, pd') :: st'⟩ name = ⟨i, pd', st'⟩ := by
  have key : ∀ data, Inv t data [] → (data.map (strip isSpace)).flatten = t ∧
      (∀ it k, pushText fl it k (data.map (strip isSpace))[0]? = pushText fl it k (some t)) ∧
      (∀ it k, pushText fl it k (data.map (strip isSpace))[1]? = it) := by
    intro data h
    rcases h with ⟨h1, h2⟩ | ⟨x, r, h1, h2, h3, -⟩
    · subst h1
      rw [strip_nil] at h2
      subst h2
      exact ⟨rfl, fun _ _ => rfl, fun _ _ => rfl⟩
    · subst h1
      refine ⟨?_, fun _ _ => by simp [h2], fun it k => ?_⟩
      · rw [List.map_cons, List.flatten_cons, flatten_blank r (fun y hy => strip_space (h3 y hy)), List.append_nil]; exact h2
      · cases r with
        | nil => rfl
        | cons y r => simp [strip_space (h3 y (by simp)), pushText]
  obtain ⟨a1, a2, a3⟩ := key data h
  obtain ⟨b1, b2, b3⟩ := key data' h'
  cases item with
  | none =>
    simp only [endElement, a1, b1]
    exact ⟨_, rfl, rfl⟩
  | some it =>
    simp only [endElement, a2, a3, b2, b3]
    exact ⟨_, rfl, rfl⟩

/-- Events that do the same to the item of an element, and keep its text. -/
def Same (fl : Str → Bool) (E E' : List Event) : Prop :=
  ∀ (t buf buf' : Str) (item : Option Dict) (data data' : List Str) (st st' : List (Option Dict × List Str)),
    Inv t data buf → Inv t data' buf' →
    ∃ (b b' : Str) (i : Option Dict) (d d' : List Str),
      E.foldl (feed fl) (buf, ⟨item, data, st⟩) = (b, ⟨i, d, st⟩) ∧ E'.foldl (feed fl) (buf', ⟨item, data', st'⟩) = (b', ⟨i, d', st'⟩)
      ∧ Inv t d b ∧ Inv t d' b'

theorem same_nil (fl : Str → Bool) : Same fl [] [] :=
  fun t buf buf' item data data' st st' h h' => ⟨buf, buf', item, data, data', rfl, rfl, h, h'⟩

theorem same_append {fl : Str → Bool} {E E' F F' : List Event} (h : Same fl E E') (g : Same fl F F') : Same fl (E ++ F) (E' ++ F') := by
  intro t buf buf' item data data' st st' h1 h2
  obtain ⟨b, b', i, d, d', e1, e2, h3, h4⟩ := h t buf buf' item data data' st st' h1 h2
  rw [List.foldl_append, List.foldl_append, e1, e2]
  exact g t b b' i d d' st st' h3 h4

theorem same_ws (fl : Str → Bool) (c : Cfg) {s : Str} (hs : AllSpace s) : Same fl (ws c s) [] := by
  intro t buf buf' item data data' st st' h1 h2
  unfold ws
  split
  · exact ⟨buf ++ s, buf', item, data, data', rfl, rfl, inv_ws h1 hs, h2⟩
  · exact ⟨buf, buf', item, data, data', rfl, rfl, h1, h2⟩

/-- An element with the same content, but for white space before its text. -/
theorem same_elem (fl : Str → Bool) (key : Str) (attrs : AList Str Str) (w txt : Str) (hw : AllSpace w) {K K' P P' : List Event}
    (hP : ∀ h, P.foldl (feed fl) ([], h) = (w ++ txt, h)) (hP' : ∀ h, P'.foldl (feed fl) ([], h) = (txt, h))
    (h : Same fl K K') : Same fl ([.start key attrs] ++ P ++ K ++ [.stop key]) ([.start key attrs] ++ P' ++ K' ++ [.stop key]) := by
  intro t buf buf' item data data' st st' h1 h2
  simp only [List.foldl_append, List.foldl_cons, List.foldl_nil]
  have hst : ∀ (buf : Str) (data : List Str) st, feed fl (buf, ⟨item, data, st⟩) (.start key attrs)
      = ([], ⟨(startElement ⟨item, data, st⟩ attrs).item, [], (item, pieces data buf) :: st⟩) := by
    intro buf data st
    simp only [feed, handle, startElement, flush_data, flush_item, flush_stack]
  rw [hst, hst]
  have hi : (startElement ⟨item, data, st⟩ attrs).item = (startElement ⟨item, data', st'⟩ attrs).item := rfl
  rw [← hi]
  generalize (startElement ⟨item, data, st⟩ attrs).item = item0
  rw [hP, hP']
  obtain ⟨b, b', i, d, d', e1, e2, h3, h4⟩ := h (strip isSpace txt) (w ++ txt) txt item0 [] [] ((item, pieces data buf) :: st)
    ((item, pieces data' buf') :: st') (.inl ⟨rfl, by rw [strip_left hw]⟩) (.inl ⟨rfl, rfl⟩)
  rw [e1, e2]
  obtain ⟨i', f1, f2⟩ := end_inv fl key (strip isSpace txt) i st st' item (pieces data buf) (pieces data' buf')
    (inv_flush h3) (inv_flush h4)
  have hf : ∀ (b : Str) (d : List Str) st, flush b ⟨i, d, st⟩ = ⟨i, pieces d b, st⟩ := by
    intro b d st
    have h1 := flush_data b ⟨i, d, st⟩
    have h2 := flush_item b ⟨i, d, st⟩
    have h3 := flush_stack b ⟨i, d, st⟩
    cases hfl : flush b ⟨i, d, st⟩
    rw [hfl] at h1 h2 h3
    simp only at h1 h2 h3
    rw [h1, h2, h3]
  simp only [feed, handle, hf, f1, f2]
  exact ⟨[], [], i', _, _, rfl, rfl, inv_flush h1, inv_flush h2⟩

/-- The same error, or events that do the same. -/
def SameR (fl : Str → Bool) (r r' : Res (List Event)) : Prop :=
  (∃ e, r = .error e ∧ r' = .error e) ∨ ∃ E E', r = .ok E ∧ r' = .ok E' ∧ Same fl E E'

/-- Not set out. -/
def flatCfg (c : Cfg) : Cfg := { c with pretty := false }

theorem same_wrap (fl : Str → Bool) (c : Cfg) (hi : AllSpace c.indent) (hl : AllSpace c.newl) (depth : Nat) (key : Str) (d : Dict)
    (hd : AList.get? d kTail = none) {r r' : Res (List Event)} (h : SameR fl r r') :
    SameR fl (wrap c depth key d r) (wrap (flatCfg c) depth key d r') := by
  have htxt : ∀ o : Option Val, (∃ e, charsOf o = .error e) ∨ ∃ s T, charsOf o = .ok T ∧ ∀ b h, T.foldl (feed fl) (b, h) = (b ++ s, h) := by
    intro o
    unfold charsOf
    split
    · exact .inr ⟨[], [], rfl, fun b h => by simp⟩
    · exact .inr ⟨[], [], rfl, fun b h => by simp⟩
    · split
      · split
        · exact .inr ⟨_, _, rfl, fun b h => rfl⟩
        · exact .inl ⟨_, rfl⟩
      · exact .inr ⟨[], [], rfl, fun b h => by simp⟩
  unfold wrap
  rw [hd]
  rcases htxt (AList.get? d kText) with ⟨e, he⟩ | ⟨s, T, hT, hs⟩
  · rw [he]; exact .inl ⟨e, rfl, rfl⟩
  · rw [hT]
    rcases h with ⟨e, rfl, rfl⟩ | ⟨E, E', rfl, rfl, hE⟩
    · exact .inl ⟨e, rfl, rfl⟩
    · refine .inr ⟨_, _, rfl, rfl, ?_⟩
      have e1 : ∀ s, ws (flatCfg c) s = [] := fun s => rfl
      simp only [e1, ite_self, List.append_nil, List.nil_append, charsOf]
      have hti := allSpace_times hi depth
      generalize hH : (d.any fun p => isChildKey p.1) = H
      have hstr : (flatCfg c).str = c.str := rfl
      rw [hstr]
      have hafter : Same fl (if depth = 0 then [] else ws c c.newl) [] := by
        split
        · exact same_nil fl
        · exact same_ws fl c hl
      have hkids : Same fl (E ++ (if H = true then ws c (times depth c.indent) else [])) E' := by
        have := same_append hE (F := if H = true then ws c (times depth c.indent) else []) (F' := []) (by
          split
          · exact same_ws fl c hti
          · exact same_nil fl)
        rwa [List.append_nil] at this
      have hel := same_elem fl key (attrsOf c.str d []) (if H = true ∧ c.pretty = true then c.newl else []) s (by
          split
          · exact hl
          · simp [AllSpace]) (P := (if H = true then ws c c.newl else []) ++ T) (P' := T) (by
          intro h
          rw [List.foldl_append]
          by_cases h1 : H = true
          · by_cases h2 : c.pretty = true
            · simp [h1, h2, ws, feed, hs]
            · simp [h1, h2, ws, hs]
          · simp [h1, hs]) (by intro h; rw [hs]; rfl) hkids
      have := same_append (same_append (same_ws fl c hti) hel) hafter
      simpa [List.append_assoc] using this

theorem sameR_append {fl : Str → Bool} {a a' b b' : Res (List Event)} (h : SameR fl a a') (g : SameR fl b b') :
    SameR fl (a >>= fun x => b >>= fun y => pure (x ++ y)) (a' >>= fun x => b' >>= fun y => pure (x ++ y)) := by
  rcases h with ⟨e, rfl, rfl⟩ | ⟨E, E', rfl, rfl, hE⟩
  · exact .inl ⟨e, rfl, rfl⟩
  · rcases g with ⟨e, rfl, rfl⟩ | ⟨F, F', rfl, rfl, hF⟩
    · exact .inl ⟨e, rfl, rfl⟩
    · exact .inr ⟨_, _, rfl, rfl, same_append hE hF⟩

theorem tailless_get? {d : Dict} (h : TaillessD d) : AList.get? d kTail = none := by
  induction d with
  | nil => rfl
  | cons p d ih =>
    obtain ⟨k, v⟩ := p
    simp only [TaillessD] at h
    have h1 : ¬k = kTail := h.1
    simp only [AList.get?]
    rw [if_neg h1]
    exact ih h.2.2

theorem leaf_tail (c : Cfg) (v : Val) : AList.get? (leafDict c v) kTail = none := by
  have : ∀ w : Val, AList.get? [(kText, w)] kTail = none := by
    intro w
    simp only [AList.get?]
    rw [if_neg (by decide +kernel)]
  unfold leafDict
  split
  · rfl
  all_goals exact this _

theorem leaf_flat (c : Cfg) (v : Val) : leafDict (flatCfg c) v = leafDict c v := by
  cases v <;> rfl

theorem same_ok (fl : Str → Bool) : SameR fl (.ok []) (.ok []) := .inr ⟨[], [], rfl, rfl, same_nil fl⟩

mutual
theorem emit_same (fl : Str → Bool) (c : Cfg) (hi : AllSpace c.indent) (hl : AllSpace c.newl) (full : Bool) (depth : Nat) (key : Str) :
    (v : Val) → Tailless v → SameR fl (emit c full depth key v) (emit (flatCfg c) full depth key v)
  | .list l, h => by
    rw [emit, emit]
    exact items_same fl c hi hl full depth key 0 l h
  | .dict d, h => by
    rw [emit, emit]
    exact same_wrap fl c hi hl depth key d (tailless_get? h) (children_same fl c hi hl (depth + 1) d h)
  | .none, _ => by
    simp only [emit, leaf_flat]; exact same_wrap fl c hi hl depth key _ (leaf_tail c _) (same_ok fl)
  | .bool b, _ => by
    simp only [emit, leaf_flat]; exact same_wrap fl c hi hl depth key _ (leaf_tail c _) (same_ok fl)
  | .int b, _ => by
    simp only [emit, leaf_flat]; exact same_wrap fl c hi hl depth key _ (leaf_tail c _) (same_ok fl)
  | .str b, _ => by
    simp only [emit, leaf_flat]; exact same_wrap fl c hi hl depth key _ (leaf_tail c _) (same_ok fl)
theorem items_same (fl : Str → Bool) (c : Cfg) (hi : AllSpace c.indent) (hl : AllSpace c.newl) (full : Bool) (depth : Nat) (key : Str)
    (i : Nat) : (l : List Val) → TaillessL l → SameR fl (emitItems c full depth key i l) (emitItems (flatCfg c) full depth key i l)
  | [], _ => by rw [emitItems, emitItems]; exact same_ok fl
  | .dict d :: l, h => by
    rw [emitItems, emitItems]
    simp only [TaillessL, Tailless] at h
    split
    · exact .inl ⟨_, rfl, rfl⟩
    · exact sameR_append (same_wrap fl c hi hl depth key d (tailless_get? h.1) (children_same fl c hi hl (depth + 1) d h.1))
        (items_same fl c hi hl full depth key (i + 1) l h.2)
  | .list r :: l, h => by
    simp only [emitItems, leaf_flat]
    simp only [TaillessL] at h
    split
    · exact .inl ⟨_, rfl, rfl⟩
    · exact sameR_append (same_wrap fl c hi hl depth key _ (leaf_tail c _) (same_ok fl))
        (items_same fl c hi hl full depth key (i + 1) l h)
  | .none :: l, h => by
    simp only [emitItems, leaf_flat]
    simp only [TaillessL] at h
    split
    · exact .inl ⟨_, rfl, rfl⟩
    · exact sameR_append (same_wrap fl c hi hl depth key _ (leaf_tail c _) (same_ok fl))
        (items_same fl c hi hl full depth key (i + 1) l h.2)
  | .bool b :: l, h => by
    simp only [emitItems, leaf_flat]
    simp only [TaillessL] at h
    split
    · exact .inl ⟨_, rfl, rfl⟩
    · exact sameR_append (same_wrap fl c hi hl depth key _ (leaf_tail c _) (same_ok fl))
        (items_same fl c hi hl full depth key (i + 1) l h.2)
  | .int b :: l, h => by
    simp only [emitItems, leaf_flat]
    simp only [TaillessL] at h
    split
    · exact .inl ⟨_, rfl, rfl⟩
    · exact sameR_append (same_wrap fl c hi hl depth key _ (leaf_tail c _) (same_ok fl))
        (items_same fl c hi hl full depth key (i + 1) l h.2)
  | .str b :: l, h => by
    simp only [emitItems, leaf_flat]
    simp only [TaillessL] at h
    split
    · exact .inl ⟨_, rfl, rfl⟩
    · exact sameR_append (same_wrap fl c hi hl depth key _ (leaf_tail c _) (same_ok fl))
        (items_same fl c hi hl full depth key (i + 1) l h.2)
theorem children_same (fl : Str → Bool) (c : Cfg) (hi : AllSpace c.indent) (hl : AllSpace c.newl) (depth : Nat) :
    (d : List (Str × Val)) → TaillessD d → SameR fl (emitChildren c depth d) (emitChildren (flatCfg c) depth d)
  | [], _ => by rw [emitChildren, emitChildren]; exact same_ok fl
  | (k, v) :: d, h => by
    rw [emitChildren, emitChildren]
    simp only [TaillessD] at h
    by_cases hc : isChildKey k = true
    · rw [if_pos hc, if_pos hc]
      refine sameR_append (emit_same fl c hi hl true depth k v ?_) (children_same fl c hi hl depth d h.2.2)
      rcases h.2.1 with h | h | h
      · subst h; exact absurd hc (by decide +kernel)
      · simp [isChildKey, h] at hc
      · exact h
    · rw [if_neg hc, if_neg hc]
      exact children_same fl c hi hl depth d h.2.2
end

/-- **C353.** A document is read back as the same, set out or not: for every document without `#tail` (and values of any
kind), if indentation and ends of line are white space. An error is the same too. -/
theorem C353_set_out_partial (fl : Str → Bool) (c : Cfg) (hi : ∀ x ∈ c.indent, isSpace x = true) (hl : ∀ x ∈ c.newl, isSpace x = true)
    (tag : Str) (v : Val) (h : Tailless v) :
    (unparse { c with pretty := true } true [(tag, v)]).map (Xml.parse fl) = (unparse { c with pretty := false } true [(tag, v)]).map (Xml.parse fl) := by
  have := emit_same fl { c with pretty := true } hi hl true 0 tag v h
  simp only [unparse, List.length_singleton, ne_eq, not_true_eq_false, and_false, if_false, emitRoots]
  rw [show flatCfg { c with pretty := true } = { c with pretty := false } from rfl] at this
  rcases this with ⟨e, e1, e2⟩ | ⟨E, E', e1, e2, hE⟩
  · rw [e1, e2]
  · rw [e1, e2]
    obtain ⟨b, b', i, d, d', f1, f2, -⟩ := hE [] [] [] none [] [] [] [] (.inl ⟨rfl, rfl⟩) (.inl ⟨rfl, rfl⟩)
    simp only [bind, Except.bind, pure, Except.pure, Except.map, List.append_nil, Xml.parse, f1, f2]

example : Tailless (.dict [("@x".toList, .int 1), ("b".toList, .list [.none, .dict [("#text".toList, .str " t".toList), ("c".toList, .bool true)]])]) := by
  simp [Tailless, TaillessD, TaillessL]

/-- **C353, violated.** An element with text, two children and a tail: the tail is read back if the document is not set out, and
is lost if it is. -/
theorem C353_tail_violated (str : Val → Str) (a b t u : Str) (hb : GoodName b) (ht : strip isSpace t ≠ []) (hu : strip isSpace u ≠ []) :
    (unparse ⟨false, "\n".toList, "\t".toList, str⟩ true [(a, .dict [(b, .list [.none, .none]), (kText, .str t), (kTail, .str u)])]).map
        (Xml.parse fun _ => false)
      = .ok (some [(a, .dict [(b, .list [.str [], .str []]), (kText, .str (strip isSpace t)), (kTail, .str (strip isSpace u))])]) ∧
    (unparse ⟨true, "\n".toList, "\t".toList, str⟩ true [(a, .dict [(b, .list [.none, .none]), (kText, .str t), (kTail, .str u)])]).map
        (Xml.parse fun _ => false)
      = .ok (some [(a, .dict [(b, .list [.str [], .str []]), (kText, .str (strip isSpace t))])]) := by
  have h1 : b ≠ ['#', 't', 'e', 'x', 't'] := by rintro rfl; exact hb.2 rfl
  have h2 : b ≠ ['#', 't', 'a', 'i', 'l'] := by rintro rfl; exact hb.2 rfl
  have h3 : b.head? ≠ some '@' := hb.1
  have ht0 : t ≠ [] := by rintro rfl; exact ht rfl
  have hu0 : u ≠ [] := by rintro rfl; exact hu rfl
  have htt : strip isSpace ('\n' :: (t ++ ['\t'])) = strip isSpace t := by
    have e1 : AllSpace ['\n'] := by unfold AllSpace; decide +kernel
    have e2 : AllSpace ['\t'] := by unfold AllSpace; decide +kernel
    rw [show '\n' :: (t ++ ['\t']) = ['\n'] ++ (t ++ ['\t']) from rfl, strip_left e1, strip_right e2]
  have hw : strip isSpace ['\n', '\t'] = [] := by decide +kernel
  obtain ⟨c, s, hcs⟩ : ∃ c s, strip isSpace t = c :: s := by
    cases h : strip isSpace t with
    | nil => exact absurd h ht
    | cons c s => exact ⟨c, s, rfl⟩
  obtain ⟨c', s', hcs'⟩ : ∃ c s, strip isSpace u = c :: s := by
    cases h : strip isSpace u with
    | nil => exact absurd h hu
    | cons c s => exact ⟨c, s, rfl⟩
  have hat : ∀ v r, attrsOf str ((b, v) :: r) [] = attrsOf str r [] := by
    intro v r
    cases b with
    | nil => rfl
    | cons x b =>
      rw [attrsOf]
      intro n v' hh
      simp at hh
      rw [hh.1.1] at h3
      simp at h3
  constructor
  all_goals
    simp only [unparse, List.length_singleton, ne_eq, not_true_eq_false, and_false, if_false, emitRoots, emit, emitChildren, emitItems]
    simp [isChildKey, kText, kTail, h1, h2, h3, wrap, leafDict, ws, hat, attrsOf, AList.get?, charsOf, Val.truthy, ht0, hu0, bind,
      Except.bind, pure, Except.pure, Except.map, times]
    simp [Xml.parse, feed, handle, flush, startElement, endElement, characters, pushData, pushText, AList.get?, AList.set, ht0, hu0,
      h1, h2, hcs, hcs', htt, hw, kText, kTail]

end Writing
end Verif.XmlSpace
