import Verif.Lemmas.Xml
import Verif.Spec.XmlStream
namespace Verif.XmlStream
open Xml

/-! ### Inside an item -/

mutual
theorem feed_node (fl : Str → Bool) (depth : Nat) (cb : List Call → Bool) (n : Node) (s : S) (hs : s.stopped = false)
    (hp : depth ≤ s.path.length) :
    n.events.foldl (feed fl depth cb) s =
      { s with buf := (n.events.foldl (Xml.feed fl) (s.buf, s.h)).1, h := (n.events.foldl (Xml.feed fl) (s.buf, s.h)).2 } := by
  match n with
  | .text t =>
    simp only [Node.events, List.foldl_cons, List.foldl_nil, feed, Xml.feed, hs]
    rfl
  | .elem name attrs content =>
    have hlt : (s.path ++ [(name, attrs)]).length > depth := by simp; omega
    have ih := feed_nodes fl depth cb content (start depth s name attrs) hs (by simp only [start]; omega)
    simp only [Node.events, List.foldl_cons, List.foldl_append, List.foldl_nil]
    rw [show feed fl depth cb s (.start name attrs) = start depth s name attrs by simp [feed, hs], ih]
    have h1 : Xml.feed fl (s.buf, s.h) (.start name attrs) = ((start depth s name attrs).buf, (start depth s name attrs).h) := by
      simp only [Xml.feed, start, hlt, if_true, Xml.handle]
    rw [h1]
    have hne : ¬ (s.path.length + 1 = depth) := by omega
    simp only [feed, stop, start, hs, List.length_append, List.length_cons, List.length_nil, hne, false_and, if_false,
      Bool.false_eq_true, Xml.feed, Xml.handle, List.dropLast_concat]
theorem feed_nodes (fl : Str → Bool) (depth : Nat) (cb : List Call → Bool) (ns : List Node) (s : S) (hs : s.stopped = false)
    (hp : depth ≤ s.path.length) :
    (eventsL ns).foldl (feed fl depth cb) s =
      { s with buf := ((eventsL ns).foldl (Xml.feed fl) (s.buf, s.h)).1, h := ((eventsL ns).foldl (Xml.feed fl) (s.buf, s.h)).2 } := by
  match ns with
  | [] => rfl
  | n :: ns =>
    rw [eventsL, List.foldl_append, List.foldl_append, feed_node fl depth cb n s hs hp, feed_nodes fl depth cb ns]
    · exact hs
    · exact hp
end

theorem flatten_runs (buf : Str) (ns : List Node) : (textRuns buf ns).flatten = buf ++ textOf ns := by
  match ns with
  | [] => rw [textRuns, textOf]; split <;> simp_all
  | .text s :: ns => rw [textRuns, textOf, flatten_runs, List.append_assoc]
  | .elem _ _ _ :: ns => rw [textRuns, textOf, List.flatten_append, flatten_runs]; split <;> simp_all

theorem runs_ne (buf : Str) (ns : List Node) : ∀ x ∈ textRuns buf ns, x ≠ [] := by
  match ns with
  | [] => rw [textRuns]; split <;> simp_all
  | .text s :: ns => rw [textRuns]; exact runs_ne _ ns
  | .elem _ _ _ :: ns =>
    rw [textRuns]
    intro x hx
    rcases List.mem_append.1 hx with h | h
    · split at h <;> simp_all
    · exact runs_ne _ ns x h

/-! ### Outside the items -/

/-- Between two items. -/
structure Out (s : S) (path : Path) (before : Str) (calls : List Call) : Prop where
  path : s.path = path
  item : s.h.item = none
  stack : s.h.stack = []
  text : s.h.data.flatten ++ s.buf = before
  pieces : ∀ x ∈ s.h.data, x ≠ []
  calls : s.calls = calls
  stopped : s.stopped = false

theorem endElement_out (fl : Str → Bool) (h : H) (name : Str) (hs : h.stack = []) : endElement fl h name = ⟨none, [], []⟩ := by
  unfold endElement; rw [hs]

mutual
theorem out_node (fl : Str → Bool) (f1 : fl kText = false) (f2 : fl kTail = false) (cb : List Call → Bool)
    (hcb : ∀ l, cb l = true) (d : Nat) (n : Node) (hg : n.Good) (s : S) (path : Path) (before : Str) (calls : List Call)
    (hs : Out s path before calls) :
    Out (n.events.foldl (feed fl (path.length + d + 1) cb) s) path (items fl d path before n).2
      (calls ++ (items fl d path before n).1) := by
  match n, d with
  | .text t, d =>
    have hst := hs.stopped
    have h1 : feed fl (path.length + d + 1) cb s (.chars t) = { s with buf := s.buf ++ t } := by simp [feed, hst]
    simp only [Node.events, List.foldl_cons, List.foldl_nil, h1, items, List.append_nil]
    exact { path := hs.path, item := hs.item, stack := hs.stack, pieces := hs.pieces, calls := hs.calls, stopped := hst,
            text := by rw [← List.append_assoc, hs.text] }
  | .elem name attrs content, 0 =>
    rw [Node.Good] at hg
    have hp := hs.path
    have hst := hs.stopped
    have h1 : feed fl (path.length + 0 + 1) cb s (.start name attrs) =
        { s with path := path ++ [(name, attrs)], buf := [], h := flush s.buf s.h } := by
      simp [feed, hst, start, hp]
    simp only [Node.events, List.foldl_cons, List.foldl_append, List.foldl_nil]
    rw [h1, feed_nodes fl _ cb content { s with path := path ++ [(name, attrs)], buf := [], h := flush s.buf s.h } hst (by simp)]
    obtain ⟨b, dt, e, hpc⟩ := feed_content fl f1 f2 content hg.2.2 [] (flush s.buf s.h).item (flush s.buf s.h).data
      (flush s.buf s.h).stack
    have e' : (eventsL content).foldl (Xml.feed fl) ([], flush s.buf s.h) =
        (b, ⟨pushAll fl none (kidsOf fl content), dt, []⟩) := by
      rw [flush_item, flush_stack, hs.item, hs.stack] at e
      rw [← e]
      congr 2
      rw [← hs.item, ← hs.stack, ← flush_item s.buf, ← flush_stack s.buf]
    simp only [e']
    have hd : pieces dt b = Xml.pieces s.h.data s.buf ++ textRuns [] content := by rw [hpc, flush_data]
    have hflat : (Xml.pieces dt b).flatten = before ++ textOf content := by
      rw [hd, List.flatten_append, flatten_runs, List.nil_append]
      congr 1
      rw [← hs.text, Xml.pieces, List.flatten_append]
      congr 1
      split <;> simp_all
    have hnil : Xml.pieces dt b = [] ↔ before ++ textOf content = [] := by
      rw [← hflat]
      constructor
      · intro h; rw [h]; rfl
      · intro h
        rw [List.flatten_eq_nil_iff] at h
        rw [List.eq_nil_iff_forall_not_mem]
        intro x hx
        have hx0 := h x hx
        rw [hd] at hx
        rcases List.mem_append.1 hx with h' | h'
        · unfold Xml.pieces at h'
          rcases List.mem_append.1 h' with h'' | h''
          · exact hs.pieces x h'' hx0
          · split at h'' <;> simp_all
        · exact runs_ne _ _ x h' hx0
    have hitem : item (flush b ⟨pushAll fl none (kidsOf fl content), dt, []⟩) = itemOf fl before content := by
      unfold item itemOf
      rw [flush_item, flush_data, pushAll_none fl _ (kids_notList fl content)]
      by_cases hk : kidsOf fl content = []
      · simp only [hk, if_true]
        by_cases hn : before ++ textOf content = []
        · rw [if_pos (hnil.2 hn), if_pos hn]
        · rw [if_neg (fun h => hn (hnil.1 h)), if_neg hn, hflat]
      · simp only [hk, if_false]
    have hstop : ∀ q : S, q.stopped = false → feed fl (path.length + 0 + 1) cb q (.stop name) =
        stop fl (path.length + 0 + 1) cb q name := by
      intro q hq; simp [feed, hq]
    rw [hstop _ (by exact hst)]
    simp only [stop, List.length_append, List.length_cons, List.length_nil, Nat.add_zero, if_true, hcb, true_and,
      Bool.true_eq_false, if_false, hitem, List.dropLast_concat]
    rw [endElement_out _ _ _ (by rw [flush_stack])]
    exact ⟨rfl, rfl, rfl, rfl, by simp, by rw [hs.calls, items], hst⟩
  | .elem name attrs content, d + 1 =>
    rw [Node.Good] at hg
    have hp := hs.path
    have hst := hs.stopped
    have h1 : feed fl (path.length + (d + 1) + 1) cb s (.start name attrs) =
        { s with path := path ++ [(name, attrs)], buf := [], h := flush s.buf s.h } := by
      have : ¬ (path.length + 1 > path.length + (d + 1) + 1) := by omega
      simp [feed, hst, start, hp, this]
    simp only [Node.events, List.foldl_cons, List.foldl_append, List.foldl_nil]
    rw [h1]
    have hout : Out { s with path := path ++ [(name, attrs)], buf := [], h := flush s.buf s.h } (path ++ [(name, attrs)])
        before calls := by
      refine ⟨rfl, ?_, ?_, ?_, ?_, hs.calls, hst⟩
      · simp only [flush_item]; exact hs.item
      · simp only [flush_stack]; exact hs.stack
      · simp only [flush_data, Xml.pieces, List.append_nil, List.flatten_append]
        rw [← hs.text]
        congr 1
        split <;> simp_all
      · simp only [flush_data, Xml.pieces]
        intro x hx
        rcases List.mem_append.1 hx with h | h
        · exact hs.pieces x h
        · split at h <;> simp_all
    have ih := out_nodes fl f1 f2 cb hcb d content hg.2.2 _ _ _ _ hout
    rw [show (path ++ [(name, attrs)]).length + d + 1 = path.length + (d + 1) + 1 by simp; omega] at ih
    generalize (eventsL content).foldl _ _ = q at ih ⊢
    have hne : ¬ (path.length + 1 = path.length + (d + 1) + 1) := by omega
    simp only [feed, ih.stopped, Bool.false_eq_true, if_false, stop, ih.path, List.length_append, List.length_cons,
      List.length_nil, Nat.zero_add, hne, false_and, List.dropLast_concat]
    rw [endElement_out _ _ _ (by rw [flush_stack]; exact ih.stack)]
    exact ⟨rfl, rfl, rfl, rfl, by simp, by rw [ih.calls, items], rfl⟩
theorem out_nodes (fl : Str → Bool) (f1 : fl kText = false) (f2 : fl kTail = false) (cb : List Call → Bool)
    (hcb : ∀ l, cb l = true) (d : Nat) (ns : List Node) (hg : GoodL ns) (s : S) (path : Path) (before : Str) (calls : List Call)
    (hs : Out s path before calls) :
    Out ((eventsL ns).foldl (feed fl (path.length + d + 1) cb) s) path (itemsL fl d path before ns).2
      (calls ++ (itemsL fl d path before ns).1) := by
  match ns with
  | [] => simpa [eventsL, itemsL] using hs
  | n :: ns =>
    rw [GoodL] at hg
    rw [eventsL, List.foldl_append, itemsL]
    have h1 := out_node fl f1 f2 cb hcb d n hg.1 s path before calls hs
    have h2 := out_nodes fl f1 f2 cb hcb d ns hg.2 _ _ _ _ h1
    simpa [List.append_assoc] using h2
end

/-! ### The elements -/

mutual
theorem items_path (fl : Str → Bool) (d : Nat) (path : Path) (before : Str) (n : Node) :
    (items fl d path before n).1.map Call.path = (elements d path n).map Found.path := by
  match n, d with
  | .text t, d => simp [items, elements]
  | .elem name attrs content, 0 => simp [items, elements]
  | .elem name attrs content, d + 1 => rw [items, elements]; exact itemsL_path fl d _ _ content
theorem itemsL_path (fl : Str → Bool) (d : Nat) (path : Path) (before : Str) (ns : List Node) :
    (itemsL fl d path before ns).1.map Call.path = (elementsL d path ns).map Found.path := by
  match ns with
  | [] => simp [itemsL, elementsL]
  | n :: ns =>
    rw [itemsL, elementsL, List.map_append, List.map_append, items_path fl d path before n,
      itemsL_path fl d path (items fl d path before n).2 ns]
end

mutual
theorem items_bare (fl : Str → Bool) (d : Nat) (path : Path) (n : Node) (h : Bare d n) :
    items fl d path [] n = ((elements d path n).map (fun f => ⟨f.path, itemOf fl [] f.content⟩), []) := by
  match n, d with
  | .text t, d => simp [Bare] at h
  | .elem name attrs content, 0 => simp [items, elements]
  | .elem name attrs content, d + 1 =>
    rw [Bare] at h
    rw [items, elements, itemsL_bare fl d _ content h]
theorem itemsL_bare (fl : Str → Bool) (d : Nat) (path : Path) (ns : List Node) (h : BareL d ns) :
    itemsL fl d path [] ns = ((elementsL d path ns).map (fun f => ⟨f.path, itemOf fl [] f.content⟩), []) := by
  match ns with
  | [] => simp [itemsL, elementsL]
  | n :: ns =>
    rw [BareL] at h
    rw [itemsL, elementsL, items_bare fl d path n h.1]
    simp only
    rw [itemsL_bare fl d path ns h.2, List.map_append]
end

mutual
theorem items_kids (fl : Str → Bool) (d : Nat) (path : Path) (before : Str) (n : Node) (k : Nat) (c : Call) (f : Found)
    (hc : (items fl d path before n).1[k]? = some c) (hf : (elements d path n)[k]? = some f)
    (hk : kidsOf fl f.content ≠ []) : c.item = some (.dict (grouped fl (kidsOf fl f.content))) := by
  match n, d with
  | .text t, d => simp [items] at hc
  | .elem name attrs content, 0 =>
    simp only [items, elements] at hc hf
    match k with
    | 0 =>
      simp only [List.getElem?_cons_zero, Option.some.injEq] at hc hf
      subst hc; subst hf
      simp only [itemOf, hk, if_false]
    | k + 1 => simp at hc
  | .elem name attrs content, d + 1 =>
    rw [items] at hc
    rw [elements] at hf
    exact itemsL_kids fl d _ _ content k c f hc hf hk
theorem itemsL_kids (fl : Str → Bool) (d : Nat) (path : Path) (before : Str) (ns : List Node) (k : Nat) (c : Call) (f : Found)
    (hc : (itemsL fl d path before ns).1[k]? = some c) (hf : (elementsL d path ns)[k]? = some f)
    (hk : kidsOf fl f.content ≠ []) : c.item = some (.dict (grouped fl (kidsOf fl f.content))) := by
  match ns with
  | [] => simp [itemsL] at hc
  | n :: ns =>
    rw [itemsL] at hc
    rw [elementsL] at hf
    simp only at hc
    have hl : (items fl d path before n).1.length = (elements d path n).length := by
      simpa using congrArg List.length (items_path fl d path before n)
    by_cases h : k < (elements d path n).length
    · rw [List.getElem?_append_left h] at hf
      rw [List.getElem?_append_left (hl ▸ h)] at hc
      exact items_kids fl d path before n k c f hc hf hk
    · rw [List.getElem?_append_right (by omega)] at hf hc
      rw [hl] at hc
      exact itemsL_kids fl d path _ ns _ c f hc hf hk
end

/-! ### Stopping -/

theorem feed_stopped (fl : Str → Bool) (depth : Nat) (cb : List Call → Bool) (evs : List Event) (s : S) (h : s.stopped = true) :
    evs.foldl (feed fl depth cb) s = s := by
  induction evs with
  | nil => rfl
  | cons e evs ih => rw [List.foldl_cons, show feed fl depth cb s e = s by simp [feed, h], ih]

theorem feed_calls (fl : Str → Bool) (depth : Nat) (cb : List Call → Bool) (s : S) (e : Event) :
    s.calls <+: (feed fl depth cb s e).calls := by
  unfold feed
  split
  · exact List.prefix_rfl
  · cases e with
    | start n a => exact List.prefix_rfl
    | chars t => exact List.prefix_rfl
    | stop n =>
      simp only [stop]
      split <;> split <;> simp

theorem foldl_calls (fl : Str → Bool) (depth : Nat) (cb : List Call → Bool) (evs : List Event) (s : S) :
    s.calls <+: (evs.foldl (feed fl depth cb) s).calls := by
  induction evs generalizing s with
  | nil => exact List.prefix_rfl
  | cons e evs ih => exact (feed_calls fl depth cb s e).trans (ih _)

/-- One event, with a callback and with one that always goes on. -/
theorem feed_sim (fl : Str → Bool) (depth : Nat) (cb : List Call → Bool) (s : S) (hs : s.stopped = false) (e : Event) :
    let full := feed fl depth (fun _ => true) s e
    let part := feed fl depth cb s e
    full.stopped = false ∧ (part = full ∧ (full.calls = s.calls ∨ ∃ c, full.calls = s.calls ++ [c] ∧ cb full.calls = true) ∨
      part.stopped = true ∧ part.calls = full.calls ∧ (∃ c, full.calls = s.calls ++ [c]) ∧ cb full.calls = false) := by
  cases e with
  | start n a => simp [feed, hs, start]
  | chars t => simp [feed, hs]
  | stop n =>
    simp only [feed, hs, Bool.false_eq_true, if_false, stop, Bool.true_eq_false, and_false]
    by_cases hd : s.path.length = depth
    · simp only [hd, if_true, true_and]
      cases hc : cb (s.calls ++ [⟨s.path, item (flush s.buf s.h)⟩]) with
      | true => simp [hs]
      | false => simp
    · simp [hd]

theorem prefix_snoc {p l : List Call} {c : Call} (h : p <+: l ++ [c]) : p = l ++ [c] ∨ p <+: l := by
  obtain ⟨t, ht⟩ := h
  rcases List.eq_nil_or_concat t with rfl | ⟨t', x, rfl⟩
  · exact .inl (by simpa using ht)
  · rw [List.concat_eq_append, ← List.append_assoc] at ht
    exact .inr ⟨t', (List.append_inj_left' ht rfl)⟩

theorem run_sim (fl : Str → Bool) (depth : Nat) (cb : List Call → Bool) (evs : List Event) (s : S) (hs : s.stopped = false)
    (hok : ∀ p, p <+: s.calls → p ≠ [] → cb p = true) :
    let full := evs.foldl (feed fl depth (fun _ => true)) s
    let part := evs.foldl (feed fl depth cb) s
    full.stopped = false ∧ part.calls <+: full.calls ∧ (∀ p, p <+: part.calls → p ≠ [] → p ≠ part.calls → cb p = true) ∧
      ((part = full ∧ (part.calls ≠ [] → cb part.calls = true)) ∨
        (part.stopped = true ∧ part.calls ≠ [] ∧ cb part.calls = false)) := by
  induction evs generalizing s with
  | nil => exact ⟨hs, List.prefix_rfl, fun p h1 h2 _ => hok p h1 h2, .inl ⟨rfl, hok _ List.prefix_rfl⟩⟩
  | cons e evs ih =>
    simp only [List.foldl_cons]
    obtain ⟨hfs, h⟩ := feed_sim fl depth cb s hs e
    rcases h with ⟨hpe, hcalls⟩ | ⟨hst, hpc, ⟨c, hc⟩, hcb⟩
    · rw [hpe]
      refine ih _ hfs ?_
      intro p hp hne
      rcases hcalls with h | ⟨c, h, hcb⟩
      · rw [h] at hp; exact hok p hp hne
      · rw [h] at hp
        rcases prefix_snoc hp with rfl | h'
        · rw [← h]; exact hcb
        · exact hok p h' hne
    · have hstay := feed_stopped fl depth cb evs _ hst
      have hfull : (feed fl depth cb s e).calls <+: (evs.foldl (feed fl depth (fun _ => true)) (feed fl depth (fun _ => true) s e)).calls := by
        rw [hpc]; exact foldl_calls fl depth _ evs _
      have hff : (evs.foldl (feed fl depth (fun _ => true)) (feed fl depth (fun _ => true) s e)).stopped = false := by
        clear hfull hstay ih
        generalize feed fl depth (fun _ => true) s e = q at hfs
        induction evs generalizing q with
        | nil => exact hfs
        | cons e' evs ih' => exact ih' _ ((feed_sim fl depth (fun _ => true) q hfs e').1)
      rw [hstay]
      refine ⟨hff, hfull, ?_, .inr ⟨hst, ?_, ?_⟩⟩
      · intro p hp hne hne'
        rw [hpc, hc] at hp hne'
        rcases prefix_snoc hp with h | h
        · exact absurd h hne'
        · exact hok p h hne
      · rw [hpc, hc]; simp
      · rw [hpc]; exact hcb

end Verif.XmlStream
