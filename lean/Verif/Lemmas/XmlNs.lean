import Verif.Spec.XmlNs
import Verif.Lemmas.Xml
import Verif.Lemmas.Strings
/-
Reading documents with comments, part by part.
-/
namespace Verif.XmlNs
open Xml

/-! ### Dictionaries without comments -/

theorem uncommentD_get? (d : Dict) {k : Str} (h : k ≠ kComment) :
    AList.get? (uncommentD d) k = (AList.get? d k).map uncomment := by
  induction d with
  | nil => simp [uncommentD, AList.get?]
  | cons p d ih =>
    obtain ⟨k', v⟩ := p
    rw [uncommentD]
    split
    · rename_i e
      have hne : ¬ k' = k := fun e' => h (e'.symm.trans e)
      rw [ih]
      simp [AList.get?, hne]
    · rw [AList.get?, AList.get?]
      split
      · rfl
      · exact ih

theorem uncommentD_set (d : Dict) {k : Str} (v : Val) (h : k ≠ kComment) :
    uncommentD (AList.set d k v) = AList.set (uncommentD d) k (uncomment v) := by
  induction d with
  | nil => simp [uncommentD, AList.set, h]
  | cons p d ih =>
    obtain ⟨k', w⟩ := p
    by_cases e : k' = k
    · subst e
      simp [AList.set, uncommentD, h]
    · by_cases e' : k' = kComment
      · subst e'
        simp [AList.set, uncommentD, e, ih]
      · simp [AList.set, uncommentD, e, e', ih]

theorem uncommentD_comment (d : Dict) (v : Val) : uncommentD (AList.set d kComment v) = uncommentD d := by
  induction d with
  | nil => simp [uncommentD, AList.set]
  | cons p d ih =>
    obtain ⟨k', w⟩ := p
    by_cases e : k' = kComment
    · subst e; simp [AList.set, uncommentD]
    · simp [AList.set, uncommentD, e, ih]

theorem uncommentL_append (a b : List Val) : uncommentL (a ++ b) = uncommentL a ++ uncommentL b := by
  induction a with
  | nil => rfl
  | cons v a ih => simp [uncommentL, ih]

theorem uncommentD_push (fl : Str → Bool) (i : Option Dict) {k : Str} (v : Val) (h : k ≠ kComment) :
    uncommentD (pushData fl i k v) = pushData fl (some (uncommentD (i.getD []))) k (uncomment v) := by
  simp only [pushData, Option.getD_some]
  rw [uncommentD_get? _ h]
  cases hg : AList.get? (i.getD []) k with
  | none =>
    simp only [Option.map_none]
    rw [uncommentD_set _ _ h]
    split <;> simp [uncomment, uncommentL]
  | some w =>
    cases w <;> simp only [Option.map_some, uncomment] <;> rw [uncommentD_set _ _ h] <;>
      simp [uncomment, uncommentL, uncommentL_append]

theorem uncommentD_push_comment (fl : Str → Bool) (i : Option Dict) (v : Val) :
    uncommentD (pushData fl i kComment v) = uncommentD (i.getD []) := by
  simp only [pushData]
  split <;> exact uncommentD_comment _ _

theorem push_getD (fl : Str → Bool) (i : Option Dict) (k : Str) (v : Val) :
    pushData fl (some (i.getD [])) k v = pushData fl i k v := rfl

theorem uncommentD_pushText (fl : Str → Bool) (d : Dict) {k : Str} (o : Option Str) (h : k ≠ kComment) :
    uncommentD (pushText fl d k o) = pushText fl (uncommentD d) k o := by
  cases o with
  | none => rfl
  | some s => cases s with
    | nil => rfl
    | cons c t => simp only [pushText]; rw [uncommentD_push fl _ _ h]; simp [uncomment]

/-! ### The handler, part by part -/

/-- Pending text, the item, and the texts. -/
abbrev St := Str × Option Dict × List Str

/-- The item an element begins with. -/
def attrItem (attrs : AList Str Str) : Option Dict :=
  if attrs = [] then none else some (AList.update [] (attrs.map (fun p => ('@' :: p.1, Val.str p.2))))

/-- The value of an element whose content has been read. -/
def closeVal (fl : Str → Bool) (s : St) : Val :=
  let data := (pieces s.2.2 s.1).map (strip isSpace)
  match s.2.1 with
  | some item => .dict (pushText fl (pushText fl item kText data[0]?) kTail data[1]?)
  | none => .str data.flatten

mutual
def Node.run (fl : Str → Bool) (cs : Bool) : Node → St → St
  | .text t, (b, i, d) => (b ++ t, i, d)
  | .comment t, (b, i, d) =>
    if cs then ([], some (pushData fl i kComment (.str (strip isSpace t))), pieces d b) else (b, i, d)
  | .elem name attrs content, (b, i, d) =>
    ([], some (pushData fl i name (closeVal fl (runL fl cs content ([], attrItem attrs, [])))), pieces d b)
def runL (fl : Str → Bool) (cs : Bool) : List Node → St → St
  | [], s => s
  | n :: ns, s => runL fl cs ns (n.run fl cs s)
end

theorem flush_eq (b : Str) (i : Option Dict) (d : List Str) (σ : List (Option Dict × List Str)) :
    flush b ⟨i, d, σ⟩ = ⟨i, pieces d b, σ⟩ := by
  have h1 := flush_data b ⟨i, d, σ⟩
  have h2 := flush_item b ⟨i, d, σ⟩
  have h3 := flush_stack b ⟨i, d, σ⟩
  cases h : flush b ⟨i, d, σ⟩
  simp_all

mutual
theorem Node.feed_events (fl : Str → Bool) (cs : Bool) (n : Node) (b : Str) (i : Option Dict) (d : List Str)
    (σ : List (Option Dict × List Str)) :
    n.events.foldl (feedC fl cs) (b, ⟨i, d, σ⟩) =
      ((n.run fl cs (b, i, d)).1, ⟨(n.run fl cs (b, i, d)).2.1, (n.run fl cs (b, i, d)).2.2, σ⟩) := by
  cases n with
  | text t => simp [Node.events, Node.run, feedC, feed]
  | comment t =>
    cases cs <;> simp [Node.events, Node.run, feedC, comments, flush_eq]
  | elem name attrs content =>
    have h := feed_eventsL fl cs content [] (attrItem attrs) [] ((i, pieces d b) :: σ)
    simp only [Node.events, List.foldl_append, List.foldl_cons, List.foldl_nil, List.cons_append]
    have h0 : feedC fl cs (b, ⟨i, d, σ⟩) (.ev (.start name attrs)) =
        ([], ⟨attrItem attrs, [], (i, pieces d b) :: σ⟩) := by
      simp [feedC, feed, handle, flush_eq, startElement, attrItem]
    rw [h0, h]
    simp only [feedC, feed, handle, flush_eq, endElement, Node.run, closeVal]
    cases (runL fl cs content ([], attrItem attrs, [])).2.1 <;> rfl
theorem feed_eventsL (fl : Str → Bool) (cs : Bool) (ns : List Node) (b : Str) (i : Option Dict) (d : List Str)
    (σ : List (Option Dict × List Str)) :
    (eventsL ns).foldl (feedC fl cs) (b, ⟨i, d, σ⟩) =
      ((runL fl cs ns (b, i, d)).1, ⟨(runL fl cs ns (b, i, d)).2.1, (runL fl cs ns (b, i, d)).2.2, σ⟩) := by
  cases ns with
  | nil => rfl
  | cons n ns =>
    simp only [eventsL, List.foldl_append, runL]
    rw [Node.feed_events fl cs n, feed_eventsL fl cs ns]
end

/-! ### With and without comments -/

/-- The same but for comments. -/
def Rel (i i' : Option Dict) : Prop := uncommentD (i.getD []) = i'.getD [] ∧ (i'.isSome → i.isSome)

theorem rel_push (fl : Str → Bool) {i i' : Option Dict} (h : Rel i i') {k : Str} (hk : k ≠ kComment) (v : Val) :
    Rel (some (pushData fl i k v)) (some (pushData fl i' k (uncomment v))) := by
  refine ⟨?_, fun _ => rfl⟩
  rw [Option.getD_some, uncommentD_push fl i v hk, h.1, push_getD]; rfl

theorem rel_comment (fl : Str → Bool) {i i' : Option Dict} (h : Rel i i') (v : Val) :
    Rel (some (pushData fl i kComment v)) i' :=
  ⟨by rw [Option.getD_some, uncommentD_push_comment, h.1], fun _ => rfl⟩

theorem at_ne (s : Str) : '@' :: s ≠ kComment := by
  intro e
  have h : ('@' :: s).head? = some '#' := by rw [e]; rfl
  simp at h

theorem uncommentD_attrs (l : List (Str × Str)) :
    uncommentD (l.map (fun p => ('@' :: p.1, Val.str p.2))) = l.map (fun p => ('@' :: p.1, Val.str p.2)) := by
  induction l with
  | nil => rfl
  | cons p l ih =>
    have := at_ne p.1
    simp only [List.map_cons, uncommentD, if_neg this, ih, uncomment]

theorem uncommentD_update (l : List (Str × Str)) (d : Dict) (h : uncommentD d = d) :
    uncommentD (AList.update d (l.map (fun p => ('@' :: p.1, Val.str p.2)))) =
      AList.update d (l.map (fun p => ('@' :: p.1, Val.str p.2))) := by
  induction l generalizing d with
  | nil => exact h
  | cons p l ih =>
    have := at_ne p.1
    simp only [List.map_cons, AList.update, List.foldl_cons]
    exact ih _ (by rw [uncommentD_set _ _ this, h]; rfl)

theorem rel_attrs (attrs : AList Str Str) : Rel (attrItem attrs) (attrItem attrs) := by
  refine ⟨?_, id⟩
  unfold attrItem
  split
  · rfl
  · exact uncommentD_update attrs [] rfl

/-- Text pending and texts are blank. -/
def BlankSt (s : St) : Prop := Spaces s.1 ∧ ∀ t ∈ s.2.2, Spaces t

theorem spaces_nil : Spaces [] := by intro c h; cases h
theorem spaces_append {a b : Str} (ha : Spaces a) (hb : Spaces b) : Spaces (a ++ b) := by
  intro c h
  rcases List.mem_append.1 h with h | h
  · exact ha c h
  · exact hb c h

theorem blank_pieces {d : List Str} {b : Str} (hb : Spaces b) (hd : ∀ t ∈ d, Spaces t) : ∀ t ∈ pieces d b, Spaces t := by
  unfold pieces
  split
  · simpa using hd
  · intro t ht
    rcases List.mem_append.1 ht with h | h
    · exact hd t h
    · rw [List.mem_singleton] at h; subst h; exact hb

theorem blank_runL (fl : Str → Bool) (cs : Bool) (ns : List Node) (hw : ns.any Node.isWord = false) (s : St)
    (h : BlankSt s) : BlankSt (runL fl cs ns s) := by
  induction ns generalizing s with
  | nil => exact h
  | cons n ns ih =>
    simp only [List.any_cons, Bool.or_eq_false_iff] at hw
    rw [runL]
    apply ih hw.2
    obtain ⟨b, i, d⟩ := s
    cases n with
    | text t =>
      refine ⟨spaces_append h.1 ?_, h.2⟩
      intro c hc
      have := hw.1
      simp only [Node.isWord, Bool.not_eq_false', List.all_eq_true] at this
      exact this c hc
    | comment t =>
      simp only [Node.run]
      split
      · exact ⟨spaces_nil, blank_pieces h.1 h.2⟩
      · exact h
    | elem name attrs content => exact ⟨spaces_nil, blank_pieces h.1 h.2⟩

theorem strip_spaces {s : Str} (h : Spaces s) : strip isSpace s = [] := by
  have : lstrip isSpace s = [] := lstrip_all h
  rw [strip, this]; rfl

theorem pushText_blank (fl : Str → Bool) (d : Dict) (k : Str) {l : List Str} (h : ∀ t ∈ l, Spaces t) (j : Nat) :
    pushText fl d k (l.map (strip isSpace))[j]? = d := by
  rw [List.getElem?_map]
  cases hg : l[j]? with
  | none => rfl
  | some t =>
    rw [Option.map_some, strip_spaces (h t (List.mem_of_getElem? hg))]
    rfl

theorem some_runL (fl : Str → Bool) (cs : Bool) (ns : List Node) (s : St)
    (h : s.2.1.isSome ∨ ns.any Node.isElem = true) : (runL fl cs ns s).2.1.isSome := by
  induction ns generalizing s with
  | nil => rw [runL]; simpa using h
  | cons n ns ih =>
    rw [runL]
    apply ih
    obtain ⟨b, i, d⟩ := s
    cases n with
    | text t => simpa [Node.run, Node.isElem] using h
    | comment t =>
      simp only [Node.run]
      split
      · exact .inl rfl
      · simpa [Node.isElem] using h
    | elem name attrs content => exact .inl rfl

/-- Without comments the texts are the same, and the items both there or both missing. -/
def Alike (s s' : St) : Prop := s.1 = s'.1 ∧ s.2.2 = s'.2.2 ∧ (s.2.1.isSome ↔ s'.2.1.isSome)

theorem alike_runL (fl : Str → Bool) (ns : List Node) (hc : ns.any Node.isComment = false) (s s' : St)
    (h : Alike s s') : Alike (runL fl true ns s) (runL fl false ns s') := by
  induction ns generalizing s s' with
  | nil => exact h
  | cons n ns ih =>
    simp only [List.any_cons, Bool.or_eq_false_iff] at hc
    rw [runL, runL]
    apply ih hc.2
    obtain ⟨b, i, d⟩ := s
    obtain ⟨b', i', d'⟩ := s'
    obtain ⟨h1, h2, h3⟩ := h
    simp only at h1 h2 h3
    subst h1 h2
    cases n with
    | text t => exact ⟨rfl, rfl, h3⟩
    | comment t => exact absurd hc.1 (by simp [Node.isComment])
    | elem name attrs content => exact ⟨rfl, rfl, by simp [Node.run]⟩

theorem close_eq (fl : Str → Bool) (attrs : AList Str Str) (content : List Node)
    (hr : content.any Node.isComment = true → Record attrs content)
    (hrel : Rel (runL fl true content ([], attrItem attrs, [])).2.1 (runL fl false content ([], attrItem attrs, [])).2.1) :
    uncomment (closeVal fl (runL fl true content ([], attrItem attrs, []))) =
      closeVal fl (runL fl false content ([], attrItem attrs, [])) := by
  have k1 : kText ≠ kComment := by decide
  have k2 : kTail ≠ kComment := by decide
  by_cases hc : content.any Node.isComment = true
  · obtain ⟨hs, hw⟩ := hr hc
    have hs' : ∀ cs, (runL fl cs content ([], attrItem attrs, [])).2.1.isSome := by
      intro cs
      apply some_runL
      rcases hs with h | h
      · left; simp [attrItem, h]
      · exact .inr h
    have hb : ∀ cs, BlankSt (runL fl cs content ([], attrItem attrs, [])) :=
      fun cs => blank_runL fl cs content hw _ ⟨spaces_nil, by intro t h; cases h⟩
    obtain ⟨i, hi⟩ := Option.isSome_iff_exists.1 (hs' true)
    obtain ⟨i', hi'⟩ := Option.isSome_iff_exists.1 (hs' false)
    simp only [closeVal, hi, hi']
    rw [pushText_blank fl _ kText (blank_pieces (hb true).1 (hb true).2),
      pushText_blank fl _ kTail (blank_pieces (hb true).1 (hb true).2),
      pushText_blank fl _ kText (blank_pieces (hb false).1 (hb false).2),
      pushText_blank fl _ kTail (blank_pieces (hb false).1 (hb false).2)]
    have := hrel.1
    rw [hi, hi'] at this
    simpa [uncomment] using this
  · have ha := alike_runL fl content (by simpa using hc) ([], attrItem attrs, []) ([], attrItem attrs, [])
      ⟨rfl, rfl, Iff.rfl⟩
    obtain ⟨h1, h2, h3⟩ := ha
    simp only [closeVal]
    rw [h1, h2]
    cases hi : (runL fl true content ([], attrItem attrs, [])).2.1 with
    | none =>
      rw [hi] at h3
      have : (runL fl false content ([], attrItem attrs, [])).2.1 = none := by
        cases h : (runL fl false content ([], attrItem attrs, [])).2.1 with
        | none => rfl
        | some x => rw [h] at h3; exact absurd (h3.2 rfl) (by simp)
      rw [this]; simp [uncomment]
    | some i =>
      rw [hi] at h3
      obtain ⟨i', hi'⟩ := Option.isSome_iff_exists.1 (h3.1 rfl)
      have := hrel.1
      rw [hi, hi', Option.getD_some, Option.getD_some] at this
      simp only [hi', uncomment]
      rw [uncommentD_pushText fl _ _ k2, uncommentD_pushText fl _ _ k1, this]

mutual
theorem Node.run_rel (fl : Str → Bool) (n : Node) (ht : n.Tidy) (s s' : St) (h : Rel s.2.1 s'.2.1) :
    Rel (n.run fl true s).2.1 (n.run fl false s').2.1 := by
  obtain ⟨b, i, d⟩ := s
  obtain ⟨b', i', d'⟩ := s'
  cases n with
  | text t => simpa [Node.run] using h
  | comment t => simpa [Node.run] using rel_comment fl h _
  | elem name attrs content =>
    rw [Node.Tidy] at ht
    have hk := runL_rel fl content ht.2.2 ([], attrItem attrs, []) ([], attrItem attrs, []) (rel_attrs attrs)
    have hc := close_eq fl attrs content ht.2.1 hk
    have := rel_push fl h ht.1 (closeVal fl (runL fl true content ([], attrItem attrs, [])))
    rw [hc] at this
    simpa [Node.run] using this
theorem runL_rel (fl : Str → Bool) (ns : List Node) (ht : TidyL ns) (s s' : St) (h : Rel s.2.1 s'.2.1) :
    Rel (runL fl true ns s).2.1 (runL fl false ns s').2.1 := by
  cases ns with
  | nil => exact h
  | cons n ns =>
    rw [TidyL] at ht
    rw [runL, runL]
    exact runL_rel fl ns ht.2 _ _ (Node.run_rel fl n ht.1 s s' h)
end

/-! ### Names -/

theorem cutLast_qualified {a b : Str} {c : Char} (h : c ∉ b) : Strings.cutLast [c] (a ++ [c] ++ b) = some (a, b) := by
  have hb : Strings.cutLast [c] b = none := by
    induction b with
    | nil => simp [Strings.cutLast]
    | cons x b ih =>
      have hx : x ≠ c := fun e => h (e ▸ List.mem_cons_self)
      rw [Strings.cutLast, ih (fun m => h (List.mem_cons_of_mem _ m))]
      simp [Ne.symm hx]
  induction a with
  | nil => simp [Strings.cutLast, hb]
  | cons x a ih =>
    rw [List.cons_append, List.cons_append, Strings.cutLast, ih]

theorem cutLast_plain {a : Str} {c : Char} (h : c ∉ a) : Strings.cutLast [c] a = none := by
  induction a with
  | nil => simp [Strings.cutLast]
  | cons x b ih =>
    have hx : x ≠ c := fun e => h (e ▸ List.mem_cons_self)
    rw [Strings.cutLast, ih (fun m => h (List.mem_cons_of_mem _ m))]
    simp [Ne.symm hx]

theorem strip_inside {s : Str} {c : Char} (h : Inside c s) : strip (fun x => decide (x ∈ [c])) s = s := by
  apply strip_eq_self
  · intro x hx
    have : x ≠ c := fun e => h.1 (by rw [← e]; exact hx)
    simp [this]
  · intro x hx
    have : x ≠ c := fun e => h.2 (by rw [← e]; exact hx)
    simp [this]

theorem drop_qualified (a b : Str) (c : Char) : (a ++ [c] ++ b).drop (a.length + 1) = b := by
  rw [List.append_assoc, List.drop_append]
  simp

end Verif.XmlNs
