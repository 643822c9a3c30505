import Verif.Spec.Xml
/-
Helper lemmas for C79-C81, C107-C110.
-/
namespace Verif.Xml

/-! ### Association lists -/

theorem set_of_notMem {d : Dict} {k : Str} (v : Val) (h : k ∉ AList.keys d) : AList.set d k v = d ++ [(k, v)] := by
  induction d with
  | nil => rfl
  | cons p d ih =>
    obtain ⟨k', w⟩ := p
    simp only [AList.keys_cons, List.mem_cons, not_or] at h
    rw [AList.set, if_neg (Ne.symm h.1), ih h.2]; rfl

theorem set_append {a b : Dict} {k : Str} (v : Val) (h : k ∉ AList.keys a) :
    AList.set (a ++ b) k v = a ++ AList.set b k v := by
  induction a with
  | nil => rfl
  | cons p d ih =>
    obtain ⟨k', w⟩ := p
    simp only [AList.keys_cons, List.mem_cons, not_or] at h
    rw [List.cons_append, AList.set, if_neg (Ne.symm h.1), ih h.2]; rfl

theorem get?_append_notMem {a b : Dict} {k : Str} (h : k ∉ AList.keys a) :
    AList.get? (a ++ b) k = AList.get? b k := by
  rw [AList.get?_append, AList.get?_eq_none.2 h]; rfl

theorem get?_map_keys {l : List Str} (f : Str → Val) {k : Str} :
    AList.get? (l.map (fun k => (k, f k))) k = if k ∈ l then some (f k) else none := by
  induction l with
  | nil => rfl
  | cons x l ih =>
    simp only [List.map_cons, AList.get?]
    by_cases e : x = k
    · subst e; simp
    · rw [if_neg e, ih]
      have : (k ∈ x :: l) ↔ k ∈ l := by simp [Ne.symm e]
      simp [this]

theorem keys_map_keys (l : List Str) (f : Str → Val) : AList.keys (l.map (fun k => (k, f k))) = l := by
  simp [AList.keys, Function.comp_def]

theorem set_map_keys {l : List Str} (f : Str → Val) {k : Str} (v : Val) (hm : k ∈ l) (hn : l.Nodup) :
    AList.set (l.map (fun k => (k, f k))) k v = l.map (fun x => (x, if x = k then v else f x)) := by
  induction l with
  | nil => simp at hm
  | cons x l ih =>
    simp only [List.nodup_cons] at hn
    simp only [List.map_cons, AList.set]
    by_cases e : x = k
    · subst e
      rw [if_pos rfl, if_pos rfl]
      congr 1
      refine List.map_congr_left (fun y hy => ?_)
      rw [if_neg]
      rintro rfl; exact hn.1 hy
    · rw [if_neg e, if_neg e, ih (by simpa [Ne.symm e] using hm) hn.2]

theorem nodup_eraseDups (l : List Str) : l.eraseDups.Nodup := by
  generalize hn : l.length = n
  induction n using Nat.strongRecOn generalizing l with
  | _ n ih =>
    cases l with
    | nil => simp
    | cons a l =>
      rw [List.eraseDups_cons, List.nodup_cons]
      constructor
      · simp [List.mem_eraseDups]
      · refine ih _ ?_ _ rfl
        subst hn
        exact Nat.lt_succ_of_le (List.length_filter_le _ _)

theorem eraseDups_snoc (l : List Str) (k : Str) :
    (l ++ [k]).eraseDups = if k ∈ l then l.eraseDups else l.eraseDups ++ [k] := by
  rw [List.eraseDups_append]
  by_cases h : k ∈ l
  · simp [h, List.removeAll]
  · simp [h, List.removeAll, List.eraseDups_cons]

/-! ### Pushing children -/

/-- Not a list. -/
def NotList (v : Val) : Prop := ∀ l, v ≠ .list l

theorem keys_grouped (fl : Str → Bool) (cs : List (Str × Val)) :
    AList.keys (grouped fl cs) = (cs.map Prod.fst).eraseDups := by
  simp [grouped, AList.keys, Function.comp_def]

theorem push_grouped (fl : Str → Bool) (base : Dict) (cs : List (Str × Val)) (k : Str) (v : Val)
    (hb : k ∉ AList.keys base) (hl : ∀ p ∈ cs, NotList p.2) :
    pushData fl (some (base ++ grouped fl cs)) k v = base ++ grouped fl (cs ++ [(k, v)]) := by
  unfold pushData
  simp only [Option.getD_some]
  rw [get?_append_notMem hb]
  have hg : AList.get? (grouped fl cs) k =
      if k ∈ cs.map Prod.fst then some (collect (fl k) ((cs.filter (fun p => p.1 = k)).map Prod.snd)) else none := by
    unfold grouped
    rw [get?_map_keys (fun k => collect (fl k) ((cs.filter (fun p => p.1 = k)).map Prod.snd))]
    simp only [List.mem_eraseDups]
  have hfil : ∀ x, (cs ++ [(k, v)]).filter (fun p => decide (p.1 = x)) =
      cs.filter (fun p => decide (p.1 = x)) ++ (if k = x then [(k, v)] else []) := by
    intro x
    rw [List.filter_append]
    by_cases e : k = x <;> simp [e]
  rw [hg]
  by_cases hk : k ∈ cs.map Prod.fst
  · rw [if_pos hk]
    -- the children so far under this tag
    obtain ⟨w, ws, hws⟩ : ∃ w ws, (cs.filter (fun p => decide (p.1 = k))).map Prod.snd = w :: ws := by
      simp only [List.mem_map] at hk
      obtain ⟨p, hp, rfl⟩ := hk
      have : p ∈ cs.filter (fun q => decide (q.1 = p.1)) := by simp [hp]
      cases hc : (cs.filter (fun q => decide (q.1 = p.1))).map Prod.snd with
      | nil => simp only [List.map_eq_nil_iff] at hc; rw [hc] at this; simp at this
      | cons w ws => exact ⟨w, ws, rfl⟩
    have hwl : NotList w := by
      have : w ∈ (cs.filter (fun p => decide (p.1 = k))).map Prod.snd := by rw [hws]; simp
      simp only [List.mem_map, List.mem_filter] at this
      obtain ⟨p, ⟨hp, -⟩, rfl⟩ := this
      exact hl p hp
    have hres : (match (some (collect (fl k) (w :: ws)) : Option Val) with
        | some (.list l) => AList.set (base ++ grouped fl cs) k (.list (l ++ [v]))
        | some w => AList.set (base ++ grouped fl cs) k (.list [w, v])
        | none => AList.set (base ++ grouped fl cs) k (if fl k then .list [v] else v)) =
        AList.set (base ++ grouped fl cs) k (collect (fl k) (w :: ws ++ [v])) := by
      cases ws with
      | nil =>
        by_cases hf : fl k = true
        · simp [collect, hf]
        · simp only [collect, hf, Bool.false_eq_true, if_false, List.cons_append, List.nil_append]
          cases w <;> first | rfl | exact absurd rfl (hwl _)
      | cons w' ws => simp [collect]
    rw [hws]
    refine hres.trans ?_
    rw [set_append _ hb]
    congr 1
    unfold grouped
    rw [List.map_append, List.map_cons, List.map_nil, eraseDups_snoc, if_pos hk]
    rw [set_map_keys (fun k => collect (fl k) ((cs.filter (fun p => p.1 = k)).map Prod.snd)) _
      (by simpa [List.mem_eraseDups] using hk) (nodup_eraseDups _)]
    refine List.map_congr_left (fun x _ => ?_)
    rw [hfil]
    by_cases e : x = k
    · subst e; simp [hws]
    · simp [e, Ne.symm e]
  · rw [if_neg hk]
    simp only
    rw [set_append _ hb, set_of_notMem]
    · congr 1
      unfold grouped
      rw [List.map_append, List.map_cons, List.map_nil, eraseDups_snoc, if_neg hk, List.map_append]
      congr 1
      · refine List.map_congr_left (fun x hx => ?_)
        rw [hfil]
        have : k ≠ x := by rintro rfl; exact hk (by simpa [List.mem_eraseDups] using hx)
        simp [this]
      · have : cs.filter (fun p => decide (p.1 = k)) = [] := by
          rw [List.filter_eq_nil_iff]
          intro p hp
          simp only [decide_eq_true_eq]
          rintro rfl
          exact hk (List.mem_map_of_mem hp)
        simp [hfil, this, collect]
    · rw [keys_grouped, List.mem_eraseDups]; exact hk

/-- All children pushed one after the other. -/
def pushAll (fl : Str → Bool) (item : Option Dict) (cs : List (Str × Val)) : Option Dict :=
  cs.foldl (fun i p => some (pushData fl i p.1 p.2)) item

theorem pushAll_grouped (fl : Str → Bool) (base : Dict) (cs cs' : List (Str × Val))
    (hb : ∀ p ∈ cs', p.1 ∉ AList.keys base) (hl : ∀ p ∈ cs, NotList p.2) (hl' : ∀ p ∈ cs', NotList p.2) :
    pushAll fl (some (base ++ grouped fl cs)) cs' = some (base ++ grouped fl (cs ++ cs')) := by
  induction cs' generalizing cs with
  | nil => simp [pushAll]
  | cons p cs' ih =>
    rw [pushAll, List.foldl_cons]
    rw [push_grouped fl base cs p.1 p.2 (hb p (by simp)) hl]
    rw [← pushAll, ih]
    · simp
    · exact fun q hq => hb q (by simp [hq])
    · intro q hq
      rcases List.mem_append.1 hq with h | h
      · exact hl q h
      · simp only [List.mem_singleton] at h; subst h; exact hl' _ (by simp)
    · exact fun q hq => hl' q (by simp [hq])

theorem grouped_nil (fl : Str → Bool) : grouped fl [] = [] := rfl

theorem pushData_none (fl : Str → Bool) (k : Str) (v : Val) : pushData fl none k v = pushData fl (some []) k v := rfl

theorem pushAll_none (fl : Str → Bool) (cs : List (Str × Val)) (hl : ∀ p ∈ cs, NotList p.2) :
    pushAll fl none cs = if cs = [] then none else some (grouped fl cs) := by
  cases cs with
  | nil => rfl
  | cons p cs =>
    rw [if_neg (by simp), pushAll, List.foldl_cons, pushData_none]
    have := pushAll_grouped fl [] [] (p :: cs) (by simp [AList.keys]) (by simp) hl
    rw [pushAll, List.foldl_cons] at this
    simpa [grouped_nil] using this

/-! ### Reading trees -/

theorem value_notList (fl : Str → Bool) (n : Node) : NotList (n.value fl) := by
  intro l
  cases n with
  | text s => simp [Node.value]
  | elem name attrs content =>
    simp only [Node.value]
    split <;> simp

theorem kids_notList (fl : Str → Bool) (ns : List Node) : ∀ p ∈ kidsOf fl ns, NotList p.2 := by
  induction ns with
  | nil => simp [kidsOf]
  | cons n ns ih =>
    cases n with
    | text s => simpa [kidsOf] using ih
    | elem name attrs content =>
      intro p hp
      rw [kidsOf, List.mem_cons] at hp
      rcases hp with rfl | hp
      · exact value_notList fl _
      · exact ih p hp

theorem kids_good (fl : Str → Bool) (ns : List Node) (h : GoodL ns) : ∀ p ∈ kidsOf fl ns, GoodName p.1 := by
  induction ns with
  | nil => simp [kidsOf]
  | cons n ns ih =>
    rw [GoodL] at h
    cases n with
    | text s => simpa [kidsOf] using ih h.2
    | elem name attrs content =>
      intro p hp
      rw [kidsOf, List.mem_cons] at hp
      rcases hp with rfl | hp
      · have := h.1; rw [Node.Good] at this; exact this.1
      · exact ih h.2 p hp

theorem update_nil_of_nodup (d : Dict) (h : (AList.keys d).Nodup) : AList.update [] d = d := by
  have gen : ∀ (a b : Dict), (AList.keys (a ++ b)).Nodup → b.foldl (fun d p => AList.set d p.1 p.2) a = a ++ b := by
    intro a b
    induction b generalizing a with
    | nil => simp
    | cons p b ih =>
      intro hn
      rw [List.foldl_cons, set_of_notMem, ih]
      · simp
      · simpa using hn
      · simp only [AList.keys, List.map_append, List.map_cons, List.nodup_append, List.mem_cons] at hn
        intro hm
        exact hn.2.2 p.1 hm p.1 (.inl rfl) rfl
  exact gen [] d (by simpa using h)

theorem keys_attrs (attrs : AList Str Str) :
    AList.keys (attrs.map (fun p => ('@' :: p.1, Val.str p.2))) = (AList.keys attrs).map ('@' :: ·) := by
  simp [AList.keys, Function.comp_def]

theorem nodup_map_cons (l : List Str) (h : l.Nodup) : (l.map ('@' :: ·)).Nodup := by
  induction l with
  | nil => simp
  | cons a l ih =>
    simp only [List.nodup_cons] at h
    simp only [List.map_cons, List.nodup_cons]
    refine ⟨?_, ih h.2⟩
    simp only [List.mem_map, not_exists, not_and]
    intro x hx e
    simp only [List.cons.injEq, true_and] at e
    subst e; exact h.1 hx

theorem goodName_notMem {k : Str} (h : GoodName k) (l : List Str) : k ∉ l.map ('@' :: ·) := by
  simp only [List.mem_map, not_exists, not_and]
  rintro x - rfl
  exact h.1 rfl

theorem good_ne_text {k : Str} (h : GoodName k) : k ≠ kText := by rintro rfl; exact h.2 rfl
theorem good_ne_tail {k : Str} (h : GoodName k) : k ≠ kTail := by rintro rfl; exact h.2 rfl

/-- What is read of text: the pieces delivered and the piece pending. -/
def pieces (data : List Str) (buf : Str) : List Str := data ++ (if buf = [] then [] else [buf])

theorem flush_data (buf : Str) (h : H) : (flush buf h).data = pieces h.data buf := by
  unfold flush pieces
  split <;> simp [characters]

theorem flush_item (buf : Str) (h : H) : (flush buf h).item = h.item := by unfold flush; split <;> rfl
theorem flush_stack (buf : Str) (h : H) : (flush buf h).stack = h.stack := by unfold flush; split <;> rfl

theorem not_mem_at_kText (l : List Str) : kText ∉ l.map ('@' :: ·) := by
  simp only [List.mem_map, not_exists, not_and]
  intro x _ e
  have := congrArg List.head? e
  simp [kText] at this

theorem not_mem_at_kTail (l : List Str) : kTail ∉ l.map ('@' :: ·) := by
  simp only [List.mem_map, not_exists, not_and]
  intro x _ e
  have := congrArg List.head? e
  simp [kTail] at this

theorem push_new (fl : Str → Bool) (d : Dict) (k : Str) (v : Val) (h : k ∉ AList.keys d) (hf : fl k = false) :
    pushData fl (some d) k v = d ++ [(k, v)] := by
  unfold pushData
  simp only [Option.getD_some, AList.get?_eq_none.2 h, hf, Bool.false_eq_true, if_false]
  exact set_of_notMem v h

theorem pushText_new (fl : Str → Bool) (d : Dict) (k : Str) (o : Option Str) (h : k ∉ AList.keys d) (hf : fl k = false) :
    pushText fl d k o = d ++ entry k o := by
  match o with
  | none => simp [entry, pushText]
  | some [] => simp [entry, pushText]
  | some (c :: t) => exact push_new fl d k _ h hf

/-- The texts added to a complete item. -/
theorem entries_push (fl : Str → Bool) (d : Dict) (a b : Option Str) (h1 : kText ∉ AList.keys d) (h2 : kTail ∉ AList.keys d)
    (f1 : fl kText = false) (f2 : fl kTail = false) :
    pushText fl (pushText fl d kText a) kTail b = d ++ entry kText a ++ entry kTail b := by
  rw [pushText_new fl d kText a h1 f1, pushText_new _ _ _ _ _ f2]
  rw [AList.keys, List.map_append, List.mem_append, not_or]
  refine ⟨h2, ?_⟩
  match a with
  | none => simp [entry]
  | some [] => simp [entry]
  | some (c :: t) => simp [entry]; decide

mutual
/-- Feeding an element adds it to the item being built, and delivers the pending text. -/
theorem feed_elem (fl : Str → Bool) (f1 : fl kText = false) (f2 : fl kTail = false) (name : Str) (attrs : AList Str Str)
    (content : List Node) (hg : (Node.elem name attrs content).Good) (buf : Str) (h : H) :
    (Node.elem name attrs content).events.foldl (feed fl) (buf, h) =
      ([], ⟨some (pushData fl h.item name ((Node.elem name attrs content).value fl)), pieces h.data buf, h.stack⟩) := by
  rw [Node.Good] at hg
  rw [Node.events, List.foldl_cons, List.foldl_append]
  simp only [feed, handle, startElement]
  rw [flush_item, flush_stack, flush_data]
  obtain ⟨buf', data', e, hp⟩ := feed_content fl f1 f2 content hg.2.2 []
    (if attrs = [] then none else some (AList.update [] (attrs.map (fun p => ('@' :: p.1, Val.str p.2))))) []
    ((h.item, pieces h.data buf) :: h.stack)
  rw [e]
  simp only [List.foldl_cons, List.foldl_nil, feed, handle, endElement, flush_stack, flush_item, flush_data]
  have hp' : pieces data' buf' = textRuns [] content := by simpa [pieces] using hp
  rw [hp']
  have hupd : AList.update [] (attrs.map (fun p => ('@' :: p.1, Val.str p.2))) =
      attrs.map (fun p => ('@' :: p.1, Val.str p.2)) :=
    update_nil_of_nodup _ (by rw [keys_attrs]; exact nodup_map_cons _ hg.2.1)
  have hitem : pushAll fl (if attrs = [] then none else some (AList.update [] (attrs.map (fun p => ('@' :: p.1, Val.str p.2)))))
      (kidsOf fl content) = if attrs = [] ∧ kidsOf fl content = [] then none
        else some (attrs.map (fun p => ('@' :: p.1, Val.str p.2)) ++ grouped fl (kidsOf fl content)) := by
    rw [hupd]
    by_cases ha : attrs = []
    · subst ha
      simp only [if_true, true_and, List.map_nil, List.nil_append]
      exact pushAll_none fl _ (kids_notList fl content)
    · rw [if_neg ha, if_neg (fun x => ha x.1)]
      have := pushAll_grouped fl (attrs.map (fun p => ('@' :: p.1, Val.str p.2))) [] (kidsOf fl content)
        (by
          intro p hp
          rw [keys_attrs]
          exact goodName_notMem (kids_good fl content hg.2.2 p hp) _)
        (by simp) (kids_notList fl content)
      simpa [grouped_nil] using this
  rw [hitem]
  have hval : (Node.elem name attrs content).value fl =
      if attrs = [] ∧ kidsOf fl content = [] then .str ((textRuns [] content).map (strip isSpace)).flatten
      else .dict (attrs.map (fun p => ('@' :: p.1, Val.str p.2)) ++ grouped fl (kidsOf fl content) ++
        entry kText ((textRuns [] content).map (strip isSpace))[0]? ++
        entry kTail ((textRuns [] content).map (strip isSpace))[1]?) := by
    rw [Node.value]
  rw [hval]
  by_cases hn : attrs = [] ∧ kidsOf fl content = []
  · rw [if_pos hn, if_pos hn]
  · rw [if_neg hn, if_neg hn]
    simp only
    congr 1
    congr 2
    have hk : ∀ k, k = kText ∨ k = kTail →
        k ∉ AList.keys (attrs.map (fun p => ('@' :: p.1, Val.str p.2)) ++ grouped fl (kidsOf fl content)) := by
      intro k hk hm
      rw [AList.keys, List.map_append, List.mem_append] at hm
      rcases hm with hm | hm
      · have hm : k ∈ AList.keys (attrs.map (fun p => ('@' :: p.1, Val.str p.2))) := hm
        rw [keys_attrs] at hm
        rcases hk with rfl | rfl
        · exact not_mem_at_kText _ hm
        · exact not_mem_at_kTail _ hm
      · have hm : k ∈ AList.keys (grouped fl (kidsOf fl content)) := hm
        rw [keys_grouped, List.mem_eraseDups, List.mem_map] at hm
        obtain ⟨p, hp, rfl⟩ := hm
        have := kids_good fl content hg.2.2 p hp
        rcases hk with h | h
        · exact good_ne_text this h
        · exact good_ne_tail this h
    congr 1
    exact congrArg Val.dict (entries_push fl _ _ _ (hk _ (.inl rfl)) (hk _ (.inr rfl)) f1 f2)
/-- Feeding the content of an element adds its child elements in order. -/
theorem feed_content (fl : Str → Bool) (f1 : fl kText = false) (f2 : fl kTail = false) (ns : List Node) (hg : GoodL ns)
    (buf : Str) (item : Option Dict) (data : List Str) (stack : List (Option Dict × List Str)) :
    ∃ buf' data', (eventsL ns).foldl (feed fl) (buf, ⟨item, data, stack⟩) = (buf', ⟨pushAll fl item (kidsOf fl ns), data', stack⟩) ∧
      pieces data' buf' = data ++ textRuns buf ns := by
  match ns with
  | [] =>
    refine ⟨buf, data, ?_, rfl⟩
    simp [eventsL, kidsOf, pushAll]
  | .text s :: ns =>
    rw [GoodL] at hg
    obtain ⟨b, d, h1, h2⟩ := feed_content fl f1 f2 ns hg.2 (buf ++ s) item data stack
    refine ⟨b, d, ?_, ?_⟩
    · rw [eventsL, Node.events, List.cons_append, List.nil_append, List.foldl_cons, kidsOf]
      exact h1
    · rw [h2, textRuns]
  | .elem name attrs content :: ns =>
    rw [GoodL] at hg
    have he := feed_elem fl f1 f2 name attrs content hg.1 buf ⟨item, data, stack⟩
    obtain ⟨b, d, h1, h2⟩ := feed_content fl f1 f2 ns hg.2 []
      (some (pushData fl item name ((Node.elem name attrs content).value fl))) (pieces data buf) stack
    refine ⟨b, d, ?_, ?_⟩
    · rw [eventsL, List.foldl_append, he, kidsOf, h1]
      rfl
    · rw [h2, textRuns, pieces, List.append_assoc]
end

/-! ### White space -/

def AllSpace (s : Str) : Prop := ∀ c ∈ s, isSpace c = true

theorem lstrip_append {a b : Str} (h : AllSpace a) : lstrip isSpace (a ++ b) = lstrip isSpace b := by
  induction a with
  | nil => rfl
  | cons c a ih =>
    rw [List.cons_append, lstrip, List.dropWhile_cons, if_pos (h c (by simp))]
    exact ih (fun x hx => h x (by simp [hx]))

theorem lstrip_all {a : Str} (h : AllSpace a) : lstrip isSpace a = [] := by
  have := lstrip_append (b := []) h
  simpa [lstrip] using this

theorem lstrip_cases (a : Str) : AllSpace a ∨ ∀ b, lstrip isSpace (a ++ b) = lstrip isSpace a ++ b := by
  induction a with
  | nil => exact .inl (by simp [AllSpace])
  | cons c a ih =>
    by_cases hc : isSpace c = true
    · rcases ih with h | h
      · left; intro x hx
        rcases List.mem_cons.1 hx with rfl | hx
        · exact hc
        · exact h x hx
      · right; intro b
        have := h b
        simp only [lstrip] at this
        simp only [lstrip, List.cons_append, List.dropWhile_cons, hc, if_true]
        exact this
    · right; intro b
      simp [lstrip, List.dropWhile_cons, hc]

theorem strip_left {a b : Str} (h : AllSpace a) : strip isSpace (a ++ b) = strip isSpace b := by
  rw [strip, lstrip_append h, strip]

theorem strip_right {a b : Str} (h : AllSpace b) : strip isSpace (a ++ b) = strip isSpace a := by
  rcases lstrip_cases a with ha | ha
  · rw [strip_left ha, strip, strip, lstrip_all h, lstrip_all ha]
  · rw [strip, ha b, List.reverse_append, lstrip_append, strip]
    intro c hc; exact h c (by simpa using hc)

theorem strip_nil : strip isSpace [] = [] := rfl

theorem allSpace_times {s : Str} (h : AllSpace s) (n : Nat) : AllSpace (times n s) := by
  induction n with
  | zero => simp [times, AllSpace]
  | succ n ih =>
    intro c hc
    rw [times, List.mem_append] at hc
    rcases hc with hc | hc
    · exact h c hc
    · exact ih c hc

/-- The texts directly inside are white space. -/
def Blank (ns : List Node) : Prop := ∀ s, Node.text s ∈ ns → AllSpace s

theorem runs_blank {ns : List Node} (h : Blank ns) (buf : Str) :
    (∀ k, entry k ((textRuns buf ns).map (strip isSpace))[0]? = entry k (some (strip isSpace buf))) ∧
    ∀ k i, entry k ((textRuns buf ns).map (strip isSpace))[i + 1]? = [] := by
  induction ns generalizing buf with
  | nil =>
    rw [textRuns]
    by_cases hb : buf = []
    · subst hb; simp [entry, strip_nil]
    · simp [hb, entry]
  | cons n ns ih =>
    have hns : Blank ns := fun s hs => h s (by simp [hs])
    cases n with
    | text s =>
      rw [textRuns]
      have := ih hns (buf ++ s)
      rw [strip_right (h s (by simp))] at this
      exact this
    | elem name attrs content =>
      rw [textRuns]
      have := ih hns []
      rw [strip_nil] at this
      by_cases hb : buf = []
      · subst hb; simpa [strip_nil] using this
      · rw [if_neg hb]
        refine ⟨fun k => by simp, fun k i => ?_⟩
        rw [List.cons_append, List.nil_append, List.map_cons, List.getElem?_cons_succ]
        cases i with
        | zero => rw [this.1]; rfl
        | succ i => exact this.2 k i

/-! ### Writing -/

theorem kidsOf_append (fl : Str → Bool) (a b : List Node) : kidsOf fl (a ++ b) = kidsOf fl a ++ kidsOf fl b := by
  induction a with
  | nil => simp [kidsOf]
  | cons n a ih => cases n <;> simp [kidsOf, ih]

theorem eventsL_append (a b : List Node) : eventsL (a ++ b) = eventsL a ++ eventsL b := by
  induction a with
  | nil => simp [eventsL]
  | cons n a ih => simp [eventsL, ih]

theorem goodL_append {a b : List Node} (ha : GoodL a) (hb : GoodL b) : GoodL (a ++ b) := by
  induction a with
  | nil => exact hb
  | cons n a ih => rw [GoodL] at ha; rw [List.cons_append, GoodL]; exact ⟨ha.1, ih ha.2⟩

theorem blank_append {a b : List Node} (ha : Blank a) (hb : Blank b) : Blank (a ++ b) := by
  intro s hs
  rcases List.mem_append.1 hs with h | h
  · exact ha s h
  · exact hb s h

/-- White space written in pretty mode. -/
def wsN (c : Cfg) (s : Str) : List Node := if c.pretty then [.text s] else []

theorem events_wsN (c : Cfg) (s : Str) : eventsL (wsN c s) = ws c s := by
  unfold wsN ws; split <;> simp [eventsL, Node.events]

theorem kids_wsN (fl : Str → Bool) (c : Cfg) (s : Str) : kidsOf fl (wsN c s) = [] := by
  unfold wsN; split <;> simp [kidsOf]

theorem good_wsN (c : Cfg) (s : Str) : GoodL (wsN c s) := by
  unfold wsN; split <;> simp [GoodL, Node.Good]

theorem blank_wsN (c : Cfg) {s : Str} (h : AllSpace s) : Blank (wsN c s) := by
  unfold wsN; split
  · intro t ht
    simp only [List.mem_singleton, Node.text.injEq] at ht
    subst ht; exact h
  · simp [Blank]

theorem isChildKey_good {k : Str} (h : GoodName k) : isChildKey k = true := by
  simp [isChildKey, good_ne_text h, good_ne_tail h, h.1]

theorem isChildKey_at (k : Str) : isChildKey ('@' :: k) = false := by simp [isChildKey]

theorem emitChildren_append (c : Cfg) (depth : Nat) (a b : Dict) :
    emitChildren c depth (a ++ b) = (do
      let x ← emitChildren c depth a
      let y ← emitChildren c depth b
      return x ++ y) := by
  induction a with
  | nil =>
    simp only [List.nil_append, emitChildren]
    cases emitChildren c depth b <;> simp [bind, Except.bind, pure, Except.pure]
  | cons p a ih =>
    obtain ⟨k, v⟩ := p
    rw [List.cons_append, emitChildren, emitChildren, ih]
    split
    · cases emit c true depth k v with
      | error e => rfl
      | ok x =>
        cases emitChildren c depth a with
        | error e => rfl
        | ok y =>
          cases emitChildren c depth b with
          | error e => rfl
          | ok z => simp [bind, Except.bind, pure, Except.pure]
    · rfl

theorem emitChildren_none (c : Cfg) (depth : Nat) (a : Dict) (h : ∀ p ∈ a, isChildKey p.1 = false) :
    emitChildren c depth a = .ok [] := by
  induction a with
  | nil => simp [emitChildren]
  | cons p a ih =>
    obtain ⟨k, v⟩ := p
    have hk : isChildKey k = false := h (k, v) (by simp)
    rw [emitChildren, hk, if_neg (by simp)]
    exact ih (fun q hq => h q (by simp [hq]))

theorem emitItems_cons (c : Cfg) (full : Bool) (depth : Nat) (key : Str) (index : Nat) (v : Val) (rest : List Val)
    (hv : NotList v) (hd : ¬ (full = true ∧ depth = 0 ∧ index > 0)) :
    emitItems c full depth key index (v :: rest) = (do
      let a ← emit c full depth key v
      let b ← emitItems c full depth key (index + 1) rest
      return a ++ b) := by
  cases v with
  | list l => exact absurd rfl (hv l)
  | _ => simp only [emitItems, if_neg hd, emit]

/-- Each item of a list is written on its own; at the root the second is refused. -/
theorem emitItems_head (c : Cfg) (full : Bool) (depth : Nat) (key : Str) (v : Val) :
    ∃ r : Res (List Event), ∀ index rest, emitItems c full depth key index (v :: rest) =
      if full = true ∧ depth = 0 ∧ index > 0 then .error .valueError else (do
      let a ← r
      let b ← emitItems c full depth key (index + 1) rest
      return a ++ b) := by
  cases v with
  | dict d => exact ⟨wrap c depth key d (emitChildren c (depth + 1) d), fun i rest => by simp only [emitItems]⟩
  | none => exact ⟨wrap c depth key (leafDict c .none) (.ok []), fun i rest => by simp only [emitItems]⟩
  | bool b => exact ⟨wrap c depth key (leafDict c (.bool b)) (.ok []), fun i rest => by simp only [emitItems]⟩
  | int b => exact ⟨wrap c depth key (leafDict c (.int b)) (.ok []), fun i rest => by simp only [emitItems]⟩
  | str b => exact ⟨wrap c depth key (leafDict c (.str b)) (.ok []), fun i rest => by simp only [emitItems]⟩
  | list b => exact ⟨wrap c depth key (leafDict c (.list b)) (.ok []), fun i rest => by simp only [emitItems]⟩

theorem attrsOf_skip (str : Val → Str) (d : Dict) (acc : AList Str Str) (h : ∀ p ∈ d, p.1.head? ≠ some '@') :
    attrsOf str d acc = acc := by
  induction d with
  | nil => rfl
  | cons p d ih =>
    obtain ⟨k, v⟩ := p
    have hk : k.head? ≠ some '@' := h (k, v) (by simp)
    rw [attrsOf]
    · exact ih (fun q hq => h q (by simp [hq]))
    · intro name w e
      cases e
      simp at hk

theorem attrsOf_attrs (str : Val → Str) (attrs : AList Str Str) (rest : Dict) (acc : AList Str Str) :
    attrsOf str (attrs.map (fun p => ('@' :: p.1, Val.str p.2)) ++ rest) acc =
      attrsOf str rest (attrs.foldl (fun a p => AList.set a p.1 p.2) acc) := by
  induction attrs generalizing acc with
  | nil => rfl
  | cons p attrs ih =>
    rw [List.map_cons, List.cons_append, attrsOf, setAttr, List.foldl_cons, ← ih]

theorem set_fold_nodup (a b : AList Str Str) (h : (AList.keys (a ++ b)).Nodup) :
    b.foldl (fun a p => AList.set a p.1 p.2) a = a ++ b := by
  induction b generalizing a with
  | nil => simp
  | cons p b ih =>
    have hs : AList.set a p.1 p.2 = a ++ [(p.1, p.2)] := by
      have : p.1 ∉ AList.keys a := by
        simp only [AList.keys, List.map_append, List.map_cons, List.nodup_append, List.mem_cons] at h
        intro hm
        exact h.2.2 p.1 hm p.1 (.inl rfl) rfl
      clear ih h
      induction a with
      | nil => rfl
      | cons q a ih =>
        obtain ⟨k', w⟩ := q
        simp only [AList.keys_cons, List.mem_cons, not_or] at this
        rw [AList.set, if_neg (Ne.symm this.1), ih this.2]; rfl
    rw [List.foldl_cons, hs, ih]
    · simp
    · simpa using h

/-! ### Canonical documents -/

/-- The children, each item of a list under the tag of the list. -/
def spread (k : Str) : Val → List (Str × Val)
  | .list l => l.map (fun v => (k, v))
  | v => [(k, v)]

theorem grouped_append (fl : Str → Bool) (a b : List (Str × Val)) (h : ∀ k ∈ a.map Prod.fst, k ∉ b.map Prod.fst) :
    grouped fl (a ++ b) = grouped fl a ++ grouped fl b := by
  unfold grouped
  rw [List.map_append, List.eraseDups_append]
  have hr : (b.map Prod.fst).removeAll (a.map Prod.fst) = b.map Prod.fst := by
    unfold List.removeAll
    rw [List.filter_eq_self]
    intro k hk
    simp only [List.contains_eq_mem, Bool.not_eq_eq_eq_not, Bool.not_true, decide_eq_false_iff_not]
    intro hm
    exact h k hm hk
  rw [hr, List.map_append]
  congr 1
  · refine List.map_congr_left (fun k hk => ?_)
    rw [List.mem_eraseDups] at hk
    have : b.filter (fun p => decide (p.1 = k)) = [] := by
      rw [List.filter_eq_nil_iff]
      intro p hp
      simp only [decide_eq_true_eq]
      rintro rfl
      exact h _ hk (List.mem_map_of_mem hp)
    rw [List.filter_append, this, List.append_nil]
  · refine List.map_congr_left (fun k hk => ?_)
    rw [List.mem_eraseDups] at hk
    have : a.filter (fun p => decide (p.1 = k)) = [] := by
      rw [List.filter_eq_nil_iff]
      intro p hp
      simp only [decide_eq_true_eq]
      rintro rfl
      exact h _ (List.mem_map_of_mem hp) hk
    rw [List.filter_append, this, List.nil_append]

theorem grouped_block (fl : Str → Bool) (k : Str) (v : Val) (vs : List Val) :
    grouped fl ((v :: vs).map (fun v => (k, v))) = [(k, collect (fl k) (v :: vs))] := by
  unfold grouped
  have h1 : (((v :: vs).map (fun v => (k, v))).map Prod.fst).eraseDups = [k] := by
    simp only [List.map_map, List.map_cons, List.eraseDups_cons]
    have : ∀ l : List Val, List.filter (fun b => !b == k) (l.map (Prod.fst ∘ fun v => (k, v))) = [] := by
      intro l; rw [List.filter_eq_nil_iff]; simp
    rw [this]; rfl
  rw [h1]
  have h2 : ((v :: vs).map (fun v => (k, v))).filter (fun p => decide (p.1 = k)) = (v :: vs).map (fun v => (k, v)) := by
    rw [List.filter_eq_self]; simp
  simp only [List.map_cons, List.map_nil] at *
  rw [h2]
  simp [Function.comp_def]

theorem canon_notList {fl : Str → Bool} {v : Val} (h : Canon fl v) : NotList v := by
  intro l e; subst e; cases h

theorem grouped_spread {fl : Str → Bool} {k : Str} {v : Val} (h : CanonChild fl (fl k) v) :
    grouped fl (spread k v) = [(k, v)] := by
  generalize hf : fl k = forced at h
  cases h with
  | one v h =>
    have : spread k v = [v].map (fun v => (k, v)) := by
      have := canon_notList h
      cases v <;> first | rfl | exact absurd rfl (this _)
    rw [this, grouped_block, hf]; rfl
  | many forced l hl h =>
    cases l with
    | nil => split at hl <;> simp at hl
    | cons v vs =>
      rw [spread, grouped_block]
      cases vs with
      | nil =>
        cases forced with
        | false => simp at hl
        | true => simp [collect, hf]
      | cons w vs => rfl

theorem spread_keys {fl : Str → Bool} {k : Str} {b : Bool} {v : Val} (h : CanonChild fl b v) :
    ∀ x ∈ (spread k v).map Prod.fst, x = k := by
  cases v <;> simp [spread, eq_comm]

theorem grouped_children {fl : Str → Bool} (children : Dict) (hn : (AList.keys children).Nodup)
    (hc : ∀ p ∈ children, CanonChild fl (fl p.1) p.2) :
    grouped fl (children.flatMap (fun p => spread p.1 p.2)) = children := by
  induction children with
  | nil => rfl
  | cons p cs ih =>
    obtain ⟨k, v⟩ := p
    rw [List.flatMap_cons, grouped_append, grouped_spread (hc (k, v) (by simp)), ih]
    · rfl
    · rw [AList.keys_cons, List.nodup_cons] at hn; exact hn.2
    · exact fun q hq => hc q (by simp [hq])
    · intro x hx hm
      have := spread_keys (hc (k, v) (by simp)) x hx
      subst this
      rw [AList.keys_cons, List.nodup_cons] at hn
      apply hn.1
      simp only [List.mem_map, List.mem_flatMap] at hm
      obtain ⟨q, ⟨r, hr, hq⟩, rfl⟩ := hm
      have := spread_keys (hc r (by simp [hr])) q.1 (List.mem_map_of_mem hq)
      rw [this]
      exact List.mem_map_of_mem hr

/-- What writing a canonical document under a tag gives: white space, an element standing for the document, white
space. -/
def Written (c : Cfg) (fl : Str → Bool) (full : Bool) (depth : Nat) (key : Str) (v : Val) : Prop :=
  ∃ attrs content, emit c full depth key v = .ok (ws c (times depth c.indent) ++ (Node.elem key attrs content).events ++
      (if depth = 0 then [] else ws c c.newl)) ∧
    (Node.elem key attrs content).Good ∧ (Node.elem key attrs content).value fl = v

/-- No texts directly inside. -/
def NoText (ns : List Node) : Prop := ∀ s, Node.text s ∉ ns

theorem runs_noText {ns : List Node} (h : NoText ns) {u : Str} (hu : u ≠ []) : textRuns [] (ns ++ [.text u]) = [u] := by
  induction ns with
  | nil => simp [textRuns, hu]
  | cons n ns ih =>
    cases n with
    | text s => exact absurd (List.mem_cons_self) (h s)
    | elem a b c => simpa [textRuns] using ih (fun s hs => h s (by simp [hs]))

theorem runs_noText_buf {ns : List Node} (h : NoText ns) (hn : ns ≠ []) {t u : Str} (ht : t ≠ []) (hu : u ≠ []) :
    textRuns t (ns ++ [.text u]) = [t, u] := by
  cases ns with
  | nil => exact absurd rfl hn
  | cons n ns =>
    cases n with
    | text s => exact absurd (List.mem_cons_self) (h s)
    | elem a b c =>
      rw [List.cons_append, textRuns, runs_noText (fun s hs => h s (by simp [hs])) hu, if_neg ht]
      rfl

theorem written_items (c : Cfg) (fl : Str → Bool) (hi : AllSpace c.indent) (hl : AllSpace c.newl) (depth : Nat) (key : Str)
    (l : List Val) (hc : ∀ v ∈ l, NotList v) (h : ∀ v ∈ l, Written c fl true (depth + 1) key v) (index : Nat) :
    ∃ ns, emitItems c true (depth + 1) key index l = .ok (eventsL ns) ∧ Blank ns ∧ GoodL ns ∧
      kidsOf fl ns = l.map (fun v => (key, v)) ∧ (c.pretty = false → NoText ns) := by
  induction l generalizing index with
  | nil => exact ⟨[], by simp [emitItems, eventsL], by simp [Blank], by simp [GoodL], by simp [kidsOf], by simp [NoText]⟩
  | cons v l ih =>
    obtain ⟨ns, h1, h2, h3, h4, h5⟩ := ih (fun w hw => hc w (by simp [hw])) (fun w hw => h w (by simp [hw])) (index + 1)
    obtain ⟨attrs, content, g1, g2, g3⟩ := h v (by simp)
    refine ⟨wsN c (times (depth + 1) c.indent) ++ [.elem key attrs content] ++ wsN c c.newl ++ ns, ?_, ?_, ?_, ?_, ?_⟩
    · rw [emitItems_cons _ _ _ _ _ _ _ (hc v (by simp)) (by simp), g1, h1]
      simp [eventsL_append, events_wsN, eventsL, bind, Except.bind, pure, Except.pure]
    · refine blank_append (blank_append (blank_append (blank_wsN c (allSpace_times hi _)) ?_) (blank_wsN c hl)) h2
      simp [Blank]
    · refine goodL_append (goodL_append (goodL_append (good_wsN _ _) ?_) (good_wsN _ _)) h3
      simp only [GoodL, and_true]; exact g2
    · simp [kidsOf_append, kids_wsN, kidsOf, g3, h4]
    · intro hp
      have := h5 hp
      simpa [NoText, wsN, hp] using this

theorem written_children (c : Cfg) (fl : Str → Bool) (hi : AllSpace c.indent) (hl : AllSpace c.newl) (depth : Nat)
    (cs : Dict) (hg : ∀ p ∈ cs, GoodName p.1) (hc : ∀ p ∈ cs, CanonChild fl (fl p.1) p.2)
    (h : ∀ p ∈ cs, ∀ v, (v = p.2 ∨ ∃ l, p.2 = .list l ∧ v ∈ l) → Canon fl v → Written c fl true (depth + 1) p.1 v) :
    ∃ ns, emitChildren c (depth + 1) cs = .ok (eventsL ns) ∧ Blank ns ∧ GoodL ns ∧
      kidsOf fl ns = cs.flatMap (fun p => spread p.1 p.2) ∧ (c.pretty = false → NoText ns) := by
  induction cs with
  | nil => exact ⟨[], by simp [emitChildren, eventsL], by simp [Blank], by simp [GoodL], by simp [kidsOf], by simp [NoText]⟩
  | cons p cs ih =>
    obtain ⟨k, v⟩ := p
    obtain ⟨ns, h1, h2, h3, h4, h6⟩ := ih (fun w hw => hg w (by simp [hw])) (fun w hw => hc w (by simp [hw]))
      (fun w hw => h w (by simp [hw]))
    have key : ∃ ms, emit c true (depth + 1) k v = .ok (eventsL ms) ∧ Blank ms ∧ GoodL ms ∧ kidsOf fl ms = spread k v ∧
        (c.pretty = false → NoText ms) := by
      have hcv := hc (k, v) (by simp)
      have hv := h (k, v) (by simp)
      simp only at hcv hv
      generalize fl k = forced at hcv
      cases hcv with
      | one v hcan =>
        obtain ⟨attrs, content, g1, g2, g3⟩ := hv v (.inl rfl) hcan
        refine ⟨wsN c (times (depth + 1) c.indent) ++ [.elem k attrs content] ++ wsN c c.newl, ?_, ?_, ?_, ?_, ?_⟩
        · rw [g1]; simp [eventsL_append, events_wsN, eventsL]
        · refine blank_append (blank_append (blank_wsN c (allSpace_times hi _)) ?_) (blank_wsN c hl)
          simp [Blank]
        · refine goodL_append (goodL_append (good_wsN _ _) ?_) (good_wsN _ _)
          simp only [GoodL, and_true]; exact g2
        · have hsp : spread k v = [(k, v)] := by
            have := canon_notList hcan
            cases v <;> first | rfl | exact absurd rfl (this _)
          simp [kidsOf_append, kids_wsN, kidsOf, g3, hsp]
        · intro hp
          simp [NoText, wsN, hp]
      | many forced l _ hall =>
        obtain ⟨ms, g1, g2, g3, g4, g5⟩ := written_items c fl hi hl depth k l (fun w hw => canon_notList (hall w hw))
          (fun w hw => hv w (.inr ⟨l, rfl, hw⟩) (hall w hw)) 0
        exact ⟨ms, by rw [emit]; exact g1, g2, g3, by rw [g4]; rfl, g5⟩
    obtain ⟨ms, m1, m2, m3, m4, m5⟩ := key
    refine ⟨ms ++ ns, ?_, blank_append m2 h2, goodL_append m3 h3, ?_, ?_⟩
    · rw [emitChildren, if_pos (isChildKey_good (hg (k, v) (by simp))), m1, h1]
      simp [eventsL_append, bind, Except.bind, pure, Except.pure]
    · rw [kidsOf_append, m4, h4, List.flatMap_cons]
    · intro hp s hs
      rcases List.mem_append.1 hs with h | h
      · exact m5 hp s h
      · exact h6 hp s h

theorem get?_entry (k : Str) (t : Option Str) (h : ∀ s, t = some s → s ≠ []) :
    AList.get? (entry k t) k = t.map Val.str := by
  match t with
  | none => rfl
  | some [] => exact absurd rfl (h [] rfl)
  | some (c :: s) => simp [entry, AList.get?]

theorem charsOf_text (t : Option Str) (h : ∀ s, t = some s → s ≠ []) :
    charsOf (t.map Val.str) = .ok (t.toList.map Event.chars) := by
  match t with
  | none => rfl
  | some [] => exact absurd rfl (h [] rfl)
  | some (c :: s) => simp [charsOf, Val.truthy]

theorem sizeOf_snd_lt {p : Str × Val} {d : Dict} (h : p ∈ d) : sizeOf p.2 < sizeOf (Val.dict d) := by
  have := List.sizeOf_lt_of_mem h
  obtain ⟨k, v⟩ := p
  simp only [Prod.mk.sizeOf_spec, Val.dict.sizeOf_spec] at *
  omega

theorem sizeOf_item_lt {v : Val} {l : List Val} (h : v ∈ l) : sizeOf v < sizeOf (Val.list l) := by
  have := List.sizeOf_lt_of_mem h
  simp only [Val.list.sizeOf_spec] at *
  omega

/-- Writing any canonical document. -/
theorem emit_canon (c : Cfg) (fl : Str → Bool) (hi : AllSpace c.indent) (hl : AllSpace c.newl) (full : Bool) (depth : Nat)
    (key : Str) (v : Val) (hkey : GoodName key) (h : Canon fl v) : Written c fl full depth key v := by
  generalize hn : sizeOf v = n
  induction n using Nat.strongRecOn generalizing v full depth key with
  | _ n ih =>
    subst hn
    cases h with
    | text s hs =>
      refine ⟨[], if s = [] then [] else [.text s], ?_, ?_, ?_⟩
      · rw [emit.eq_def]
        simp only [leafDict, wrap, List.any_cons, List.any_nil, AList.get?]
        have h1 : isChildKey kText = false := by decide
        have h2 : (kText = kTail) = False := by simp; decide
        have h3 : attrsOf c.str [(kText, .str s)] [] = [] := attrsOf_skip _ _ _ (by simp; decide)
        simp only [h1, h2, h3, if_true, if_false, Bool.or_false, Bool.false_eq_true]
        by_cases hs : s = []
        · subst hs
          simp [charsOf, Val.truthy, bind, Except.bind, pure, Except.pure, Node.events, eventsL]
        · have : (Val.str s).truthy = true := by simp [Val.truthy, hs]
          simp [charsOf, this, hs, bind, Except.bind, pure, Except.pure, Node.events, eventsL]
      · rw [Node.Good]
        refine ⟨hkey, by simp [AList.keys], ?_⟩
        split <;> simp [GoodL, Node.Good]
      · rw [Node.value]
        by_cases hs0 : s = []
        · subst hs0; simp [kidsOf, textRuns]
        · simp only [hs0, if_false, kidsOf, textRuns, List.nil_append]
          have : strip isSpace s = s := hs
          simp [this]
    | node attrs children text h0 h1 h2 h3 h4 h5 =>
      generalize hD : attrs.map (fun p => ('@' :: p.1, Val.str p.2)) ++ children ++ entry kText text = D at ih
      obtain ⟨ns, e1, e2, e3, e4, -⟩ := written_children c fl hi hl depth children h3 h4 (by
        intro p hp w hw hcw
        have hpD : p ∈ D := by rw [← hD]; simp [hp]
        have hlt := sizeOf_snd_lt hpD
        refine ih (sizeOf w) ?_ true (depth + 1) p.1 w (h3 p hp) hcw rfl
        rcases hw with rfl | ⟨l, hl', hw⟩
        · exact hlt
        · have := sizeOf_item_lt hw
          rw [← hl'] at this
          omega)
      have hentry : ∀ p ∈ entry kText text, p.1 = kText := by
        match text with
        | none => simp [entry]
        | some [] => simp [entry]
        | some (c :: t) => simp [entry]
      -- the children are written, the rest is not
      have hkids : emitChildren c (depth + 1) D = .ok (eventsL ns) := by
        rw [← hD, emitChildren_append, emitChildren_append, e1,
          emitChildren_none _ _ (attrs.map (fun p => ('@' :: p.1, Val.str p.2))),
          emitChildren_none _ _ (entry kText text)]
        · simp [bind, Except.bind, pure, Except.pure]
        · intro p hp; rw [hentry p hp]; decide
        · intro p hp
          simp only [List.mem_map] at hp
          obtain ⟨q, -, rfl⟩ := hp
          exact isChildKey_at _
      have hattrs : attrsOf c.str D [] = attrs := by
        rw [← hD, List.append_assoc, attrsOf_attrs, attrsOf_skip, set_fold_nodup]
        · simp
        · simpa using h1
        · intro p hp
          rcases List.mem_append.1 hp with hp | hp
          · exact (h3 p hp).1
          · rw [hentry p hp]; decide
      have hchild : D.any (fun p => isChildKey p.1) = !children.isEmpty := by
        rw [← hD, List.any_append, List.any_append]
        have a1 : (attrs.map (fun p => ('@' :: p.1, Val.str p.2))).any (fun p => isChildKey p.1) = false := by
          rw [List.any_eq_false]
          intro p hp
          simp only [List.mem_map] at hp
          obtain ⟨q, -, rfl⟩ := hp
          simp [isChildKey_at]
        have a2 : (entry kText text).any (fun p => isChildKey p.1) = false := by
          rw [List.any_eq_false]
          intro p hp
          rw [hentry p hp]; decide
        rw [a1, a2]
        cases children with
        | nil => rfl
        | cons p cs => simp [isChildKey_good (h3 p (by simp))]
      have hnomem : ∀ k, ¬ GoodName k → k.head? ≠ some '@' →
          k ∉ AList.keys (attrs.map (fun p => ('@' :: p.1, Val.str p.2)) ++ children) := by
        intro k hk hk' hm
        rw [AList.keys, List.map_append, List.mem_append] at hm
        rcases hm with hm | hm
        · simp only [List.map_map, List.mem_map, Function.comp_apply] at hm
          obtain ⟨q, -, rfl⟩ := hm
          simp at hk'
        · simp only [List.mem_map] at hm
          obtain ⟨q, hq, rfl⟩ := hm
          exact hk (h3 q hq)
      have hT : AList.get? D kText = text.map Val.str := by
        rw [← hD, get?_append_notMem (hnomem kText (by simp [GoodName, kText]) (by decide)), get?_entry]
        exact fun s hs => (h5 s hs).2
      have hL : AList.get? D kTail = none := by
        rw [← hD, get?_append_notMem (hnomem kTail (by simp [GoodName, kTail]) (by decide)), AList.get?_eq_none]
        intro hm
        simp only [AList.keys, List.mem_map] at hm
        obtain ⟨q, hq, hq'⟩ := hm
        rw [hentry q hq] at hq'
        exact absurd hq' (by decide)
      refine ⟨attrs, (if children.isEmpty then [] else wsN c c.newl) ++ text.toList.map Node.text ++ ns ++
        (if children.isEmpty then [] else wsN c (times depth c.indent)), ?_, ?_, ?_⟩
      · rw [emit, wrap, hkids, hattrs, hchild, hT, hL, charsOf_text text (fun s hs => (h5 s hs).2)]
        have het : eventsL (text.toList.map Node.text) = text.toList.map Event.chars := by
          cases text <;> simp [eventsL, Node.events]
        cases children with
        | nil => simp [charsOf, bind, Except.bind, pure, Except.pure, Node.events, eventsL_append, het, eventsL]
        | cons p cs =>
          simp [charsOf, bind, Except.bind, pure, Except.pure, Node.events, eventsL_append, het, eventsL, events_wsN]
      · rw [Node.Good]
        refine ⟨hkey, h1, goodL_append (goodL_append (goodL_append ?_ ?_) e3) ?_⟩
        · split
          · simp [GoodL]
          · exact good_wsN _ _
        · cases text <;> simp [GoodL, Node.Good]
        · split
          · simp [GoodL]
          · exact good_wsN _ _
      · have hk : kidsOf fl ((if children.isEmpty then [] else wsN c c.newl) ++ text.toList.map Node.text ++ ns ++
            (if children.isEmpty then [] else wsN c (times depth c.indent))) = children.flatMap (fun p => spread p.1 p.2) := by
          have t1 : kidsOf fl (text.toList.map Node.text) = [] := by cases text <;> simp [kidsOf]
          have t2 : ∀ s, kidsOf fl (if children.isEmpty then [] else wsN c s) = [] := by
            intro s; split
            · simp [kidsOf]
            · exact kids_wsN _ _ _
          rw [kidsOf_append, kidsOf_append, kidsOf_append, t1, t2, t2, e4]; simp
        have hgr := grouped_children children h2 h4
        have hne : ¬ (attrs = [] ∧ children.flatMap (fun p => spread p.1 p.2) = []) := by
          rintro ⟨ha, hb⟩
          rw [hb] at hgr
          rcases h0 with h0 | h0
          · exact h0 ha
          · exact h0 hgr.symm
        -- the texts
        have hruns : ∃ buf, (∃ a, AllSpace a ∧ buf = a ++ text.getD []) ∧
            textRuns [] ((if children.isEmpty then [] else wsN c c.newl) ++ text.toList.map Node.text ++ ns ++
              (if children.isEmpty then [] else wsN c (times depth c.indent))) =
            textRuns buf (ns ++ (if children.isEmpty then [] else wsN c (times depth c.indent))) := by
          refine ⟨(if children.isEmpty then [] else if c.pretty then c.newl else []) ++ text.getD [], ⟨_, ?_, rfl⟩, ?_⟩
          · split
            · simp [AllSpace]
            · split
              · exact hl
              · simp [AllSpace]
          · unfold wsN
            cases children.isEmpty <;> cases c.pretty <;> cases text <;> simp [textRuns]
        obtain ⟨buf, ⟨a, ha, rfl⟩, hr⟩ := hruns
        have hb : Blank (ns ++ (if children.isEmpty then [] else wsN c (times depth c.indent))) := by
          refine blank_append e2 ?_
          split
          · simp [Blank]
          · exact blank_wsN c (allSpace_times hi _)
        obtain ⟨r0, r1⟩ := runs_blank hb (a ++ text.getD [])
        rw [Node.value]
        rw [hk, if_neg hne, hgr, hr, r0, r1, strip_left ha, ← hD, List.append_nil]
        congr 2
        cases text with
        | none => rfl
        | some t => simp only [Option.getD_some]; rw [show strip isSpace t = t from (h5 t rfl).1]

end Verif.Xml
