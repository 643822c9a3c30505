import Verif.Lemmas.XmlStream
/-
C298 the elements handed over, C299 what is handed over for them, C300 stopping.
-/
namespace Verif.XmlStream
open Xml

private def s (x : String) : Str := x.toList
private def noForce : Str → Bool := fun _ => false
private def go : List Call → Bool := fun _ => true

/-- `<a><b x="1"><c>1</c><c>2</c></b><b>t</b></a>` -/
private def doc : Node := .elem (s "a") [] [.elem (s "b") [(s "x", s "1")] [.elem (s "c") [] [.text (s "1")], .elem (s "c") [] [.text (s "2")]],
  .elem (s "b") [] [.text (s "t")]]
private theorem doc_good : doc.Good := by
  simp only [doc, Node.Good, GoodL, and_true, GoodName]
  decide

/-- `<a>␣<b>u</b></a>`, as written with indentation. -/
private def spaced (t u : Str) : Node := .elem (s "a") [] [.text t, .elem (s "b") [] [.text u]]

theorem init_out : Out init [] [] [] := ⟨rfl, rfl, rfl, rfl, by simp [init], rfl, rfl⟩

/-- The calls made while a document is read to its end. -/
theorem run_items (fl : Str → Bool) (f1 : fl kText = false) (f2 : fl kTail = false) (cb : List Call → Bool)
    (hcb : ∀ l, cb l = true) (d : Nat) (root : Node) (hg : root.Good) :
    Out (run fl (d + 1) cb root.events) [] (items fl d [] [] root).2 (items fl d [] [] root).1 := by
  have := out_node fl f1 f2 cb hcb d root hg init [] [] [] init_out
  simpa [run] using this

/-! ### C298 -/

/-- **C298**: reading a document with an item depth calls the callback once for every element at this depth, in the order of
the document, with the names and attributes on the way to it; nothing is returned in the end. -/
theorem C298_elements (fl : Str → Bool) (f1 : fl kText = false) (f2 : fl kTail = false) (cb : List Call → Bool)
    (hcb : ∀ l, cb l = true) (d : Nat) (root : Node) (hg : root.Good) :
    (run fl (d + 1) cb root.events).calls.map Call.path = (elements d [] root).map Found.path ∧
      parse fl (d + 1) cb root.events = .ok none := by
  have h := run_items fl f1 f2 cb hcb d root hg
  refine ⟨?_, ?_⟩
  · rw [h.calls, items_path]
  · simp only [parse, h.stopped, h.item]; rfl

example : doc.Good ∧ (elements 1 [] doc).map Found.path =
      [[(s "a", []), (s "b", [(s "x", s "1")])], [(s "a", []), (s "b", [])]] ∧
    (run noForce 2 go doc.events).calls = [⟨[(s "a", []), (s "b", [(s "x", s "1")])], some (.dict [(s "c", .list [.str (s "1"), .str (s "2")])])⟩,
      ⟨[(s "a", []), (s "b", [])], some (.str (s "t"))⟩] ∧
    (run noForce 3 go doc.events).calls.length = 2 ∧ (run noForce 4 go doc.events).calls.length = 0 :=
  ⟨doc_good, by decide +kernel, by decide +kernel, by decide +kernel, by decide +kernel⟩

/-- **C298**: without an item depth no call is made, and the document is returned as it is otherwise. -/
theorem C298_whole (fl : Str → Bool) (cb : List Call → Bool) (root : Node) :
    (run fl 0 cb root.events).calls = [] ∧ parse fl 0 cb root.events = .ok (Xml.parse fl root.events) := by
  have h := feed_node fl 0 cb root init rfl (Nat.zero_le _)
  constructor
  · rw [run, h]; rfl
  · simp only [parse, run, h]; rfl

example : parse noForce 0 go doc.events = .ok (some [(s "a", .dict [(s "b", .list [
    .dict [(s "@x", .str (s "1")), (s "c", .list [.str (s "1"), .str (s "2")])], .str (s "t")])])]) := by decide +kernel

/-! ### C299 -/

/-- **C299**, what holds: an element that has child elements is handed over as these, by tag and in order, whatever text the
document has. -/
theorem C299_children_partial (fl : Str → Bool) (f1 : fl kText = false) (f2 : fl kTail = false) (cb : List Call → Bool)
    (hcb : ∀ l, cb l = true) (d : Nat) (root : Node) (hg : root.Good) (k : Nat) (c : Call) (f : Found)
    (hc : (run fl (d + 1) cb root.events).calls[k]? = some c) (hf : (elements d [] root)[k]? = some f)
    (hk : kidsOf fl f.content ≠ []) : c.item = some (.dict (grouped fl (kidsOf fl f.content))) := by
  rw [(run_items fl f1 f2 cb hcb d root hg).calls] at hc
  exact items_kids fl d [] [] root k c f hc hf hk

example : ((run noForce 2 go doc.events).calls[0]?).map (·.item) = some (some (.dict [(s "c", .list [.str (s "1"), .str (s "2")])])) ∧
    ((elements 1 [] doc)[0]?).map (fun f => kidsOf noForce f.content) = some [(s "c", .str (s "1")), (s "c", .str (s "2"))] :=
  ⟨by decide +kernel, by decide +kernel⟩

/-- **C299**, what holds: in a document without text outside the elements at the depth, an element without attributes that
has either a text or children, and no white space around its text, is handed over as it is read otherwise. -/
theorem C299_bare_partial (fl : Str → Bool) (f1 : fl kText = false) (f2 : fl kTail = false) (cb : List Call → Bool)
    (hcb : ∀ l, cb l = true) (d : Nat) (root : Node) (hg : root.Good) (hb : Bare d root)
    (hplain : ∀ f ∈ elements d [] root, (kidsOf fl f.content = [] ∧ Stripped (textOf f.content) ∧ textOf f.content ≠ []) ∨
      (kidsOf fl f.content ≠ [] ∧ textOf f.content = [])) :
    (run fl (d + 1) cb root.events).calls =
      (elements d [] root).map (fun f => ⟨f.path, some ((Node.elem [] [] f.content).value fl)⟩) := by
  rw [(run_items fl f1 f2 cb hcb d root hg).calls, items_bare fl d [] root hb]
  apply List.map_congr_left
  intro f hf
  congr 1
  rw [Node.value]
  have hfl := flatten_runs [] f.content
  rw [List.nil_append] at hfl
  rcases hplain f hf with ⟨hk, hs, hn⟩ | ⟨hk, hn⟩
  · simp only [itemOf, hk, List.nil_append, hn, if_true, if_false, and_true, true_and]
    congr 2
    have hone : ∀ (buf : Str) (ns : List Node), kidsOf fl ns = [] → (textRuns buf ns) = if buf ++ textOf ns = [] then [] else [buf ++ textOf ns] := by
      intro buf ns
      induction ns generalizing buf with
      | nil => intro _; simp [textRuns, textOf]
      | cons n ns ih =>
        intro h
        cases n with
        | text t => rw [textRuns, textOf, ← List.append_assoc]; exact ih _ (by simpa [kidsOf] using h)
        | elem a b c => simp [kidsOf] at h
    rw [hone [] f.content hk, List.nil_append, if_neg hn]
    have hs' : strip isSpace (textOf f.content) = textOf f.content := hs
    simp [hs']
  · have hz : textRuns [] f.content = [] := by
      rw [List.eq_nil_iff_forall_not_mem]
      intro x hx
      rw [hn, List.flatten_eq_nil_iff] at hfl
      exact runs_ne _ _ x hx (hfl x hx)
    simp [itemOf, hk, hz, entry]

example : ∃ root : Node, root.Good ∧ Bare 1 root ∧ (∀ f ∈ elements 1 [] root,
      (kidsOf noForce f.content = [] ∧ Stripped (textOf f.content) ∧ textOf f.content ≠ []) ∨
      (kidsOf noForce f.content ≠ [] ∧ textOf f.content = [])) ∧ (elements 1 [] root).length = 2 := by
  refine ⟨doc, doc_good, by simp [doc, Bare, BareL], ?_, rfl⟩
  intro f hf
  simp only [doc, elements, elementsL, List.nil_append, List.append_nil, List.cons_append, List.mem_cons, List.not_mem_nil,
    or_false] at hf
  rcases hf with rfl | rfl
  · exact .inr ⟨by decide, by decide⟩
  · exact .inl ⟨by decide, by unfold Stripped; decide, by decide⟩

/-- **C299** fails: the attributes of an element are not in what is handed over for it. -/
theorem C299_attributes_violated (fl : Str → Bool) (f1 : fl kText = false) (f2 : fl kTail = false) (cb : List Call → Bool)
    (hcb : ∀ l, cb l = true) (name : Str) (attrs : AList Str Str) (content : List Node)
    (hg : (Node.elem name attrs content).Good) (ha : attrs ≠ []) :
    ∃ c, (run fl 1 cb (Node.elem name attrs content).events).calls = [c] ∧
      c.item ≠ some ((Node.elem name attrs content).value fl) := by
  refine ⟨_, (run_items fl f1 f2 cb hcb 0 _ hg).calls, ?_⟩
  rw [Node.value]
  simp only [ha, false_and, if_false, itemOf]
  split
  · split <;> simp
  · rename_i hk
    intro h
    obtain ⟨p, ps, rfl⟩ := List.exists_cons_of_ne_nil ha
    simp only [Option.some.injEq, Val.dict.injEq, List.map_cons, List.cons_append] at h
    have hmem : '@' :: p.1 ∈ AList.keys (grouped fl (kidsOf fl content)) := by rw [h]; simp [AList.keys]
    rw [keys_grouped, List.mem_eraseDups, List.mem_map] at hmem
    obtain ⟨q, hq, he⟩ := hmem
    rw [Node.Good] at hg
    have := (kids_good fl content hg.2.2 q hq).1
    rw [he] at this
    simp at this

example : (run noForce 1 go (Node.elem (s "b") [(s "x", s "1")] [.elem (s "c") [] []]).events).calls.map (·.item) =
    [some (.dict [(s "c", .str [])])] := by decide +kernel

/-- **C299** fails: the text before an element without children is handed over with the element, such as the indentation of
the document. -/
theorem C299_text_violated (fl : Str → Bool) (f1 : fl kText = false) (f2 : fl kTail = false) (cb : List Call → Bool)
    (hcb : ∀ l, cb l = true) (t u : Str) (ht : t ≠ []) :
    (run fl 2 cb (spaced t u).events).calls = [⟨[(s "a", []), (s "b", [])], some (.str (t ++ u))⟩] ∧
      some (Val.str (t ++ u)) ≠ some ((Node.elem (s "b") [] [.text u]).value fl) := by
  have hg : (spaced t u).Good := by
    simp only [spaced, Node.Good, GoodL, and_true, GoodName]
    decide
  constructor
  · rw [(run_items fl f1 f2 cb hcb 1 _ hg).calls]
    simp [spaced, items, itemsL, itemOf, kidsOf, textOf, ht]
  · have hle : ∀ x : Str, (strip isSpace x).length ≤ x.length := by
      intro x
      unfold strip
      have hl : ∀ y : Str, (lstrip isSpace y).length ≤ y.length := fun y => (List.dropWhile_sublist _).length_le
      simp only [List.length_reverse]
      exact Nat.le_trans (hl _) (by simpa using hl x)
    have h0 : 0 < t.length := List.length_pos_iff.2 ht
    intro h
    rw [Node.value] at h
    simp only [kidsOf, and_self, if_true, textRuns, List.nil_append, Option.some.injEq, Val.str.injEq] at h
    have := congrArg List.length h
    simp only [List.length_append] at this
    split at this
    · simp_all
    · have h2 := hle u
      simp at this
      omega

example : (run noForce 2 go (spaced (s "\n  ") (s "1")).events).calls.map (·.item) = [some (.str (s "\n  1"))] ∧
    (Node.elem (s "b") [] [.text (s "1")]).value noForce = .str (s "1") := ⟨by decide +kernel, by rfl⟩

/-- **C299** fails: an element without content is handed over as None, where it is read as an empty text. -/
theorem C299_empty_violated (fl : Str → Bool) (f1 : fl kText = false) (f2 : fl kTail = false) (cb : List Call → Bool)
    (hcb : ∀ l, cb l = true) (name : Str) (hn : GoodName name) :
    (run fl 1 cb (Node.elem name [] []).events).calls = [⟨[(name, [])], none⟩] ∧
      (Node.elem name [] []).value fl = .str [] := by
  have hg : (Node.elem name [] []).Good := by
    rw [Node.Good]; exact ⟨hn, by simp [AList.keys], by simp [GoodL]⟩
  constructor
  · rw [(run_items fl f1 f2 cb hcb 0 _ hg).calls]
    simp [items, itemOf, kidsOf, textOf]
  · rw [Node.value]; simp [kidsOf, textRuns]

example : GoodName (s "b") ∧ (run noForce 1 go (Node.elem (s "b") [] []).events).calls = [⟨[(s "b", [])], none⟩] :=
  ⟨by unfold GoodName; decide, by decide +kernel⟩

/-! ### C300 -/

/-- **C300**: the callback is called as for a callback that always goes on, up to the first call after which it does not
want to; then reading is interrupted, and only then. -/
theorem C300_stops (fl : Str → Bool) (depth : Nat) (cb : List Call → Bool) (evs : List Event) :
    Until cb (run fl depth (fun _ => true) evs).calls (run fl depth cb evs).calls ∧
      ((∃ e, parse fl depth cb evs = .error e) ↔ (run fl depth cb evs).calls ≠ [] ∧ cb (run fl depth cb evs).calls = false) ∧
      ∀ r, parse fl depth cb evs = .ok r → parse fl depth (fun _ => true) evs = .ok r := by
  obtain ⟨h0, h1, h2, h3⟩ := run_sim fl depth cb evs init rfl (by simp [init])
  have r1 : ∀ b, run fl depth b evs = evs.foldl (feed fl depth b) init := fun _ => rfl
  rw [← r1] at h0 h1 h2 h3
  rw [← r1] at h1 h3
  refine ⟨⟨h1, h2, ?_⟩, ?_, ?_⟩
  · rcases h3 with ⟨h, _⟩ | ⟨_, h⟩
    · exact .inl (by rw [h])
    · exact .inr h
  · unfold parse
    rcases h3 with ⟨h, hc⟩ | ⟨hst, hne, hc⟩
    · rw [h]
      simp only [h0, Bool.false_eq_true, if_false, reduceCtorEq, exists_false, false_iff, not_and]
      intro hne
      rw [h] at hc
      rw [hc hne]; simp
    · simp [hst, hne, hc]
  · intro r hr
    rcases h3 with ⟨h, hc⟩ | ⟨hst, hne, hc⟩
    · unfold parse at hr ⊢
      rwa [← h]
    · simp [parse, hst] at hr

/-- A callback that wants one item only. -/
private def one : List Call → Bool := fun l => decide (l.length < 1)

example : (run noForce 3 one doc.events).calls.length = 1 ∧ (run noForce 3 go doc.events).calls.length = 2 ∧
    parse noForce 3 one doc.events = .error .exception := ⟨by decide +kernel, by decide +kernel, by decide +kernel⟩

end Verif.XmlStream
