import Verif.Spec.XmlOptions
/-
Lemmas for C346-C349.
-/
namespace Verif.XmlOptions
open XmlNs Spec
open Xml (Dict)

mutual
/-- The handler on a part of a document: the item and the texts of the element around it. -/
def run (o : O) (path : Path) : Node → Option Dict × List Str → Option Dict × List Str
  | .text s, st => (st.1, st.2 ++ [s])
  | .comment t, st =>
    let t := .str (if o.strip then Verif.strip isSpace t else t)
    (pushData o path st.1 o.commentKey t t, st.2)
  | .elem name attrs content, st =>
    let p := path ++ [(name, attrs)]
    let r := runL o p content (attrItem o p attrs, [])
    (close o p name r.1 r.2 st.1, st.2)
def runL (o : O) (path : Path) : List Node → Option Dict × List Str → Option Dict × List Str
  | [], st => st
  | n :: ns, st => runL o path ns (run o path n st)
end

mutual
theorem handle_events (o : O) (path : Path) (n : Node) (item : Option Dict) (data : List Str)
    (stack : List (Option Dict × List Str)) :
    n.events.foldl (handle o) ⟨path, item, data, stack⟩
      = ⟨path, (run o path n (item, data)).1, (run o path n (item, data)).2, stack⟩ := by
  cases n with
  | text s => simp [Node.events, handle, run]
  | comment s => simp [Node.events, handle, run, comments]
  | elem name attrs content =>
    simp only [Node.events, List.cons_append, List.foldl_cons, List.foldl_append, List.foldl_nil]
    simp only [handle, startElement]
    rw [handle_eventsL]
    simp [handle, endElement, run]
theorem handle_eventsL (o : O) (path : Path) (ns : List Node) (item : Option Dict) (data : List Str)
    (stack : List (Option Dict × List Str)) :
    (eventsL ns).foldl (handle o) ⟨path, item, data, stack⟩
      = ⟨path, (runL o path ns (item, data)).1, (runL o path ns (item, data)).2, stack⟩ := by
  cases ns with
  | nil => simp [eventsL, runL]
  | cons n ns =>
    simp only [eventsL, List.foldl_append]
    rw [handle_events, handle_eventsL]
    simp [runL]
end

theorem parse_eventsL (o : O) (ns : List Node) : parse o (eventsL ns) = (runL o [] ns (none, [])).1 := by
  unfold parse
  rw [handle_eventsL]

theorem runL_append (o : O) (path : Path) (ns ms : List Node) (st : Option Dict × List Str) :
    runL o path (ns ++ ms) st = runL o path ms (runL o path ns st) := by
  induction ns generalizing st with
  | nil => rfl
  | cons n ns ih => simp [runL, ih]

/-- `force_list` looks neither at the path nor at the value. -/
def Blind (o : O) : Prop := ∀ p p' k v v', forced o p k v = forced o p' k v'

theorem blind_of {o : O} (h : NotCall o.force) : Blind o := by
  intro p p' k v v'
  unfold forced
  cases hf : o.force with
  | call f => rw [hf] at h; exact h.elim
  | _ => rfl

theorem put_path {o : O} (h : Blind o) (p p' : Path) (item : Option Dict) (k : Str) (v seen : Val) :
    put o p item k v seen = put o p' item k v seen := by
  unfold put
  rw [h p p' k seen seen]

theorem put_post (o : O) (q : Option (Path → Str → Val → Post)) (b : Bool) (p : Path) (item : Option Dict) (k : Str) (v seen : Val) :
    put { o with post := q, attribs := b } p item k v seen = put o p item k v seen := rfl

/-! ### Names -/

/-- The postprocessor that gives names. -/
def naming (names : Str → Option Str) : Path → Str → Val → Post := fun _ k _ =>
  match names k with
  | none => .drop
  | some k' => .same k'

/-- The handler with it. -/
def named (o : O) (names : Str → Option Str) : O := { o with post := some (naming names) }

theorem pushData_named {o : O} (h0 : o.post = none) (hb : Blind o) (names : Str → Option Str) (p p' : Path)
    (item : Option Dict) (k : Str) (v seen : Val) :
    pushData (named o names) p item k v seen = match names k with
      | none => item
      | some k' => pushData o p' item k' v seen := by
  unfold pushData
  simp only [named, naming, h0]
  cases names k with
  | none => rfl
  | some k' =>
    simp only
    congr 1
    exact put_path hb p p' item k' v seen

theorem pushText_named {o : O} (h0 : o.post = none) (hb : Blind o) (names : Str → Option Str) (p p' : Path)
    (item : Dict) (k : Str) (hk : names k = some k) (t : Option Str) :
    pushText (named o names) p item k t = pushText o p' item k t := by
  unfold pushText
  split
  · rw [pushData_named h0 hb names p p', hk]
  · rfl

theorem close_named {o : O} (h0 : o.post = none) (hb : Blind o) (names : Str → Option Str)
    (h1 : names o.textKey = some o.textKey) (h2 : names o.tailKey = some o.tailKey) (p p' : Path) (name : Str)
    (item : Option Dict) (data : List Str) (parent : Option Dict) :
    close (named o names) p name item data parent = match names name with
      | none => parent
      | some name' => close o p' name' item data parent := by
  unfold close
  have e1 : (named o names).strip = o.strip := rfl
  have e2 : ∀ i d, opened (named o names) i d = opened o i d := fun _ _ => rfl
  have e3 : (named o names).textKey = o.textKey := rfl
  have e4 : (named o names).tailKey = o.tailKey := rfl
  have e5 : (named o names).separator = o.separator := rfl
  rw [e1, e3, e4, e5]
  generalize (if o.strip = true then data.map (Verif.strip isSpace) else data) = data'
  dsimp only
  rw [e2]
  generalize opened o item data' = item'
  cases item' with
  | none =>
    simp only
    rw [pushData_named h0 hb names p p']
  | some it =>
    simp only
    rw [pushText_named h0 hb names p p' _ _ h1, pushText_named h0 hb names p p' _ _ h2, pushData_named h0 hb names p p']

theorem attrItem_named {o : O} (h0 : o.post = none) (names att : Str → Option Str)
    (ha : ∀ a, names (o.attrPrefix ++ a) = (att a).map (o.attrPrefix ++ ·)) (p p' : Path) (attrs : AList Str Str) :
    attrItem (named o names) p attrs
      = attrItem o p' (attrs.filterMap fun a => (att a.1).map fun k => (k, a.2)) := by
  unfold attrItem
  have e1 : (named o names).attribs = o.attribs := rfl
  rw [e1]
  have : attrs.filterMap (attr (named o names) p)
      = (attrs.filterMap fun a => (att a.1).map fun k => (k, a.2)).filterMap (attr o p') := by
    rw [List.filterMap_filterMap]
    congr 1
    funext a
    have := ha a.1
    simp only [attr, h0, named, naming]
    cases hk : att a.1 with
    | none => rw [hk] at this; simp [this]
    | some k => rw [hk] at this; simp [this, attr, h0]
  rw [this]

mutual
theorem run_named {o : O} (h0 : o.post = none) (hb : Blind o) (names att : Str → Option Str) (cs : Bool)
    (h1 : names o.textKey = some o.textKey) (h2 : names o.tailKey = some o.tailKey)
    (h3 : names o.commentKey = if cs then some o.commentKey else none)
    (ha : ∀ a, names (o.attrPrefix ++ a) = (att a).map (o.attrPrefix ++ ·)) (p p' : Path) (n : Node)
    (st : Option Dict × List Str) :
    run (named o names) p n st = runL o p' (translated names att cs n) st := by
  cases n with
  | text s => simp [run, runL, translated]
  | comment s =>
    simp only [run, translated]
    rw [pushData_named h0 hb names p p']
    have e1 : (named o names).commentKey = o.commentKey := rfl
    rw [e1, h3]
    cases cs <;> simp [runL, run] <;> rfl
  | elem name attrs content =>
    simp only [run, translated]
    rw [close_named h0 hb names h1 h2 _ (p' ++ [((names name).getD [], attrs.filterMap fun a => (att a.1).map fun k => (k, a.2))])]
    cases hn : names name with
    | none => simp [runL]
    | some name' =>
      simp only [runL, run, Option.getD_some]
      rw [attrItem_named h0 names att ha _ (p' ++ [(name', attrs.filterMap fun a => (att a.1).map fun k => (k, a.2))]),
        runL_named h0 hb names att cs h1 h2 h3 ha _ (p' ++ [(name', attrs.filterMap fun a => (att a.1).map fun k => (k, a.2))])]
theorem runL_named {o : O} (h0 : o.post = none) (hb : Blind o) (names att : Str → Option Str) (cs : Bool)
    (h1 : names o.textKey = some o.textKey) (h2 : names o.tailKey = some o.tailKey)
    (h3 : names o.commentKey = if cs then some o.commentKey else none)
    (ha : ∀ a, names (o.attrPrefix ++ a) = (att a).map (o.attrPrefix ++ ·)) (p p' : Path) (ns : List Node)
    (st : Option Dict × List Str) :
    runL (named o names) p ns st = runL o p' (translate names att cs ns) st := by
  cases ns with
  | nil => simp [runL, translate]
  | cons n ns =>
    simp only [runL, translate]
    rw [runL_append, run_named h0 hb names att cs h1 h2 h3 ha p p', runL_named h0 hb names att cs h1 h2 h3 ha p p']
end

/-! ### Attributes -/

/-- The handler without attributes. -/
def plain (o : O) : O := { o with attribs := false }

theorem pushData_plain {o : O} (h0 : o.post = none) (hb : Blind o) (p p' : Path)
    (item : Option Dict) (k : Str) (v seen : Val) :
    pushData (plain o) p item k v seen = pushData o p' item k v seen := by
  unfold pushData
  simp only [plain, h0]
  congr 1
  exact put_path hb p p' item k v seen

theorem pushText_plain {o : O} (h0 : o.post = none) (hb : Blind o) (p p' : Path) (item : Dict) (k : Str) (t : Option Str) :
    pushText (plain o) p item k t = pushText o p' item k t := by
  unfold pushText
  split
  · rw [pushData_plain h0 hb p p']
  · rfl

theorem close_plain {o : O} (h0 : o.post = none) (hb : Blind o) (p p' : Path) (name : Str)
    (item : Option Dict) (data : List Str) (parent : Option Dict) :
    close (plain o) p name item data parent = close o p' name item data parent := by
  unfold close
  have e1 : (plain o).strip = o.strip := rfl
  have e2 : ∀ i d, opened (plain o) i d = opened o i d := fun _ _ => rfl
  have e3 : (plain o).textKey = o.textKey := rfl
  have e4 : (plain o).tailKey = o.tailKey := rfl
  have e5 : (plain o).separator = o.separator := rfl
  rw [e1, e3, e4, e5]
  generalize (if o.strip = true then data.map (Verif.strip isSpace) else data) = data'
  dsimp only
  rw [e2]
  generalize opened o item data' = item'
  cases item' with
  | none =>
    simp only
    rw [pushData_plain h0 hb p p']
  | some it =>
    simp only
    rw [pushText_plain h0 hb p p', pushText_plain h0 hb p p', pushData_plain h0 hb p p']

mutual
theorem run_plain {o : O} (h0 : o.post = none) (hb : Blind o) (p p' : Path) (n : Node) (st : Option Dict × List Str) :
    run (plain o) p n st = runL o p' (translated some (fun _ => none) true n) st := by
  cases n with
  | text s => simp [run, runL, translated]
  | comment s =>
    simp only [run, translated]
    rw [pushData_plain h0 hb p p']
    simp [runL, run]; rfl
  | elem name attrs content =>
    simp only [run, translated, runL]
    rw [close_plain h0 hb _ (p' ++ [(name, attrs.filterMap fun a => none)]),
      runL_plain h0 hb _ (p' ++ [(name, attrs.filterMap fun a => none)])]
    have e1 : attrItem (plain o) (p ++ [(name, attrs)]) attrs = none := by simp [attrItem, plain]
    have e2 : ∀ q, attrItem o q [] = none := by simp [attrItem]
    have e3 : attrs.filterMap (fun _ => (none : Option (Str × Str))) = [] := by
      clear e1
      induction attrs with
      | nil => rfl
      | cons a as ih => exact ih
    simp [e1, e2, e3, bare]
theorem runL_plain {o : O} (h0 : o.post = none) (hb : Blind o) (p p' : Path) (ns : List Node) (st : Option Dict × List Str) :
    runL (plain o) p ns st = runL o p' (bare ns) st := by
  cases ns with
  | nil => simp [runL, bare, translate]
  | cons n ns =>
    simp only [runL, bare, translate]
    rw [runL_append, run_plain h0 hb p p', runL_plain h0 hb p p']
    rfl
end

/-! ### Lists -/

/-- One value stands alone, or in a list if it should; several stand in a list. -/
def grouped (lone : Val → Bool) : List Val → Option Val
  | [] => none
  | [v] => some (if lone v then .list [v] else v)
  | vs => some (.list vs)

theorem within_iff (s t : Str) : within s t = true ↔ Spec.Part s t := by
  induction t with
  | nil =>
    simp only [within, List.isEmpty_iff]
    constructor
    · rintro rfl; exact ⟨[], [], rfl⟩
    · rintro ⟨a, b, h⟩
      have := congrArg List.length h
      simp at this
      exact List.eq_nil_of_length_eq_zero (by omega)
  | cons c t ih =>
    simp only [within, Bool.or_eq_true, ih, List.isPrefixOf_iff_prefix]
    constructor
    · rintro (⟨b, h⟩ | ⟨a, b, h⟩)
      · exact ⟨[], b, by simpa using h.symm⟩
      · exact ⟨c :: a, b, by simp [h]⟩
    · rintro ⟨a, b, h⟩
      cases a with
      | nil => exact .inl ⟨b, by simpa using h.symm⟩
      | cons x a =>
        simp only [List.cons_append, List.cons.injEq] at h
        exact .inr ⟨a, b, by simpa using h.2⟩

theorem listed_iff {o : O} (h : NotCall o.force) (p : Path) (k : Str) (v : Val) :
    forced o p k v = true ↔ Listed o.force k := by
  unfold forced
  cases hf : o.force with
  | never => simp [Listed]
  | always => simp [Listed]
  | names ks => simp [Listed]
  | text s => simp [Listed, within_iff, List.isEmpty_iff]
  | call f => rw [hf] at h; exact h.elim

theorem get?_put {o : O} (hb : Blind o) (p : Path) (item : Option Dict) (k key : Str) (v seen : Val) (acc : List Val)
    (hacc : ∀ w ∈ acc, ∀ l, w ≠ .list l)
    (h : AList.get? (item.getD []) k = grouped (fun _ => forced o [] k .none) acc) :
    AList.get? (put o p item key v seen) k
      = grouped (fun _ => forced o [] k .none) (if key = k then acc ++ [v] else acc) := by
  by_cases hk : key = k
  · subst hk
    rw [if_pos rfl]
    unfold put
    dsimp only
    rw [h, hb p [] key seen .none]
    match acc, hacc with
    | [], _ => simp [grouped, AList.get?_set_self]
    | [w], hacc =>
      simp only [grouped]
      by_cases hf : forced o [] key .none = true
      · simp [hf, AList.get?_set_self, grouped]
      · have hw := hacc w (by simp)
        simp only [hf]
        cases w with
        | list l => exact absurd rfl (hw l)
        | _ => simp [AList.get?_set_self, grouped]
    | w :: w' :: ws, _ => simp [grouped, AList.get?_set_self]
  · rw [if_neg hk, ← h]
    unfold put
    dsimp only
    generalize (if forced o p key seen = true then Val.list [v] else v) = u
    split <;> rw [AList.get?_set_ne _ _ hk]

theorem pushData_plainPost {o : O} (h0 : o.post = none) (p : Path) (item : Option Dict) (k : Str) (v seen : Val) :
    pushData o p item k v seen = some (put o p item k v seen) := by
  unfold pushData
  rw [h0]

/-- The value of an element goes under its name, and is no list. -/
theorem close_put {o : O} (h0 : o.post = none) (p : Path) (name : Str) (item : Option Dict) (data : List Str) :
    ∃ v seen, (∀ l, v ≠ .list l) ∧ ∀ parent, close o p name item data parent = some (put o p parent name v seen) := by
  unfold close
  generalize (if o.strip = true then data.map (Verif.strip isSpace) else data) = data'
  dsimp only
  cases opened o item data' with
  | none => exact ⟨_, _, by simp, fun parent => pushData_plainPost h0 _ _ _ _ _⟩
  | some it => exact ⟨_, _, by simp, fun parent => pushData_plainPost h0 _ _ _ _ _⟩

/-- The children of an element under one name. -/
theorem runL_lists {o : O} (h0 : o.post = none) (hb : Blind o) (p : Path) (k : Str) (hk : k ≠ o.commentKey)
    (ns : List Node) (st : Option Dict × List Str) (acc : List Val) (hacc : ∀ w ∈ acc, ∀ l, w ≠ .list l)
    (h : AList.get? (st.1.getD []) k = grouped (fun _ => forced o [] k .none) acc) :
    ∃ vs : List Val, vs.length = (ns.filter (Spec.isElem k)).length
      ∧ AList.get? ((runL o p ns st).1.getD []) k = grouped (fun _ => forced o [] k .none) (acc ++ vs)
      ∧ ∀ w ∈ acc ++ vs, ∀ l, w ≠ .list l := by
  induction ns generalizing st acc with
  | nil => exact ⟨[], rfl, by simpa [runL] using h, by simpa using hacc⟩
  | cons n ns ih =>
    simp only [runL]
    cases n with
    | text s =>
      obtain ⟨vs, h1, h2, h3⟩ := ih (run o p (.text s) st) acc hacc (by simpa [run] using h)
      exact ⟨vs, by simpa [Spec.isElem] using h1, h2, h3⟩
    | comment s =>
      obtain ⟨vs, h1, h2, h3⟩ := ih (run o p (.comment s) st) acc hacc (by
        simp only [run, pushData_plainPost h0, Option.getD_some]
        rw [get?_put hb _ _ k _ _ _ acc hacc h, if_neg (fun e => hk e.symm)])
      exact ⟨vs, by simpa [Spec.isElem] using h1, h2, h3⟩
    | elem name attrs content =>
      have hr : ∃ v seen, (∀ l, v ≠ .list l)
          ∧ (run o p (.elem name attrs content) st).1 = some (put o (p ++ [(name, attrs)]) st.1 name v seen) := by
        simp only [run]
        obtain ⟨v, seen, hv, hc⟩ := close_put h0 (p ++ [(name, attrs)]) name
          (runL o (p ++ [(name, attrs)]) content (attrItem o (p ++ [(name, attrs)]) attrs, [])).1
          (runL o (p ++ [(name, attrs)]) content (attrItem o (p ++ [(name, attrs)]) attrs, [])).2
        exact ⟨v, seen, hv, hc _⟩
      obtain ⟨v, seen, hv, hr⟩ := hr
      have hp := get?_put hb (p ++ [(name, attrs)]) st.1 k name v seen acc hacc h
      by_cases hn : name = k
      · rw [if_pos hn] at hp
        obtain ⟨vs, h1, h2, h3⟩ := ih (run o p (.elem name attrs content) st) (acc ++ [v]) (by
          intro w hw
          rcases List.mem_append.mp hw with hw | hw
          · exact hacc w hw
          · simp at hw; subst hw; exact hv) (by rw [hr]; exact hp)
        exact ⟨v :: vs, by simp [Spec.isElem, hn, h1], by simpa using h2, by simpa using h3⟩
      · rw [if_neg hn] at hp
        obtain ⟨vs, h1, h2, h3⟩ := ih (run o p (.elem name attrs content) st) acc hacc (by rw [hr]; exact hp)
        exact ⟨vs, by simpa [Spec.isElem, hn] using h1, h2, h3⟩

/-! ### Texts apart -/

/-- Special names. -/
def Special (keys : List Str) (pre : Str) (k : Str) : Prop := k ∈ keys ∨ pre.isPrefixOf k = true

instance (keys : List Str) (pre k : Str) : Decidable (Special keys pre k) := inferInstanceAs (Decidable (_ ∨ _))

theorem get?_apartD (text : Str) (keys : List Str) (pre : Str) (d : Dict) (k : Str) :
    AList.get? (apartD text keys pre d) k
      = (AList.get? d k).map fun v => if Special keys pre k then v else apart text keys pre v := by
  induction d with
  | nil => rfl
  | cons p d ih =>
    obtain ⟨k', v⟩ := p
    simp only [apartD, AList.get?]
    by_cases h : k' = k
    · subst h; simp [Special]
    · simp only [h, if_false]; exact ih

theorem set_apartD (text : Str) (keys : List Str) (pre : Str) (d : Dict) (k : Str) (v : Val) :
    apartD text keys pre (AList.set d k v)
      = AList.set (apartD text keys pre d) k (if Special keys pre k then v else apart text keys pre v) := by
  induction d with
  | nil => rfl
  | cons p d ih =>
    obtain ⟨k', v'⟩ := p
    simp only [apartD, AList.set]
    by_cases h : k' = k
    · subst h; simp [apartD, Special]
    · simp only [h, if_false, apartD, ih]

theorem apartL_append (text : Str) (keys : List Str) (pre : Str) (l l' : List Val) :
    apartL text keys pre (l ++ l') = apartL text keys pre l ++ apartL text keys pre l' := by
  induction l with
  | nil => rfl
  | cons v l ih => simp [apartL, ih]

theorem apart_list (text : Str) (keys : List Str) (pre : Str) (l : List Val) :
    apart text keys pre (.list l) = .list (apartL text keys pre l) := by rw [apart]

theorem apart_notList (text : Str) (keys : List Str) (pre : Str) (w : Val) (h : ∀ l, w ≠ .list l) (l : List Val) :
    apart text keys pre w ≠ .list l := by
  unfold apart
  split <;> simp_all

theorem put_apart {o : O} (hb : Blind o) (text : Str) (keys : List Str) (pre : Str) (b : Bool) (p p' : Path)
    (item : Option Dict) (k : Str) (v s s' : Val) :
    put { o with forceCdata := b } p (item.map (apartD text keys pre)) k
        (if Special keys pre k then v else apart text keys pre v) s
      = apartD text keys pre (put o p' item k v s') := by
  have hf : forced { o with forceCdata := b } p k s = forced o p' k s' := hb p p' k s s'
  unfold put
  rw [hf]
  have hd : (item.map (apartD text keys pre)).getD [] = apartD text keys pre (item.getD []) := by
    cases item <;> simp [apartD]
  rw [hd]
  generalize item.getD [] = d
  dsimp only
  rw [get?_apartD]
  cases hg : AList.get? d k with
  | none =>
    simp only [Option.map_none]
    rw [set_apartD]
    congr 1
    by_cases h1 : forced o p' k s' = true <;> by_cases h2 : Special keys pre k <;> simp [h1, h2, apart_list, apartL]
  | some w =>
    simp only [Option.map_some]
    by_cases hw : ∃ l, w = .list l
    · obtain ⟨l, rfl⟩ := hw
      by_cases h2 : Special keys pre k <;> simp [h2, apart_list, apartL, set_apartD, apartL_append]
    · have hw' : ∀ l, w ≠ .list l := fun l h => hw ⟨l, h⟩
      by_cases h2 : Special keys pre k
      · simp only [h2, if_true]
        cases w with
        | list l => exact absurd rfl (hw' l)
        | _ => simp [h2, set_apartD]
      · simp only [h2, if_false]
        have h3 := apart_notList text keys pre w hw'
        rw [set_apartD, if_neg h2, apart_list]
        simp only [apartL]

/-- The handler with `force_cdata`. -/
def cdata (o : O) : O := { o with forceCdata := true }

/-- The names that are none of elements. -/
def keysOf (o : O) : List Str := [o.textKey, o.tailKey, o.commentKey]

abbrev apD (o : O) : Dict → Dict := apartD o.textKey (keysOf o) o.attrPrefix

theorem push_special {o : O} (h0 : o.post = none) (hb : Blind o) (p : Path) (item : Option Dict) (k : Str) (v s s' : Val)
    (hk : Special (keysOf o) o.attrPrefix k) :
    pushData (cdata o) p (item.map (apD o)) k v s = (pushData o p item k v s').map (apD o) := by
  rw [pushData_plainPost (show (cdata o).post = none from h0), pushData_plainPost h0, Option.map_some]
  have := put_apart hb o.textKey (keysOf o) o.attrPrefix true p p item k v s s'
  rw [if_pos hk] at this
  exact congrArg some this

theorem push_elem {o : O} (h0 : o.post = none) (hb : Blind o) (p : Path) (item : Option Dict) (k : Str) (v s s' : Val)
    (hk : ¬ Special (keysOf o) o.attrPrefix k) :
    pushData (cdata o) p (item.map (apD o)) k (apart o.textKey (keysOf o) o.attrPrefix v) s
      = (pushData o p item k v s').map (apD o) := by
  rw [pushData_plainPost (show (cdata o).post = none from h0), pushData_plainPost h0, Option.map_some]
  have := put_apart hb o.textKey (keysOf o) o.attrPrefix true p p item k v s s'
  rw [if_neg hk] at this
  exact congrArg some this

theorem pushText_apart {o : O} (h0 : o.post = none) (hb : Blind o) (p : Path) (it : Dict) (k : Str) (t : Option Str)
    (hk : Special (keysOf o) o.attrPrefix k) :
    pushText (cdata o) p (apD o it) k t = apD o (pushText o p it k t) := by
  unfold pushText
  split
  · have := push_special h0 hb p (some it) k (.str (‹Char› :: ‹List Char›)) (.str (‹Char› :: ‹List Char›)) (.str (‹Char› :: ‹List Char›)) hk
    rw [Option.map_some] at this
    rw [this, pushData_plainPost h0]
    rfl
  · rfl

theorem keys_update (d e : Dict) (k : Str) (h : k ∈ AList.keys (AList.update d e)) : k ∈ AList.keys d ∨ k ∈ AList.keys e := by
  have h1 : AList.update d e = e.foldl (fun d p => AList.set d p.1 p.2) d := rfl
  rw [h1] at h
  clear h1
  induction e generalizing d with
  | nil => exact .inl h
  | cons p e ih =>
    rw [List.foldl_cons] at h
    rcases ih _ h with h | h
    · rw [AList.keys_set] at h
      split at h
      · exact .inl h
      · rcases List.mem_append.mp h with h | h
        · exact .inl h
        · simp at h; subst h; exact .inr (by simp [AList.keys])
    · exact .inr (by simp [AList.keys] at h ⊢; exact .inr h)

theorem apartD_special (text : Str) (keys : List Str) (pre : Str) (d : Dict) (h : ∀ k ∈ AList.keys d, Special keys pre k) :
    apartD text keys pre d = d := by
  induction d with
  | nil => rfl
  | cons p d ih =>
    obtain ⟨k, v⟩ := p
    have h1 : k ∈ keys ∨ pre.isPrefixOf k = true := h k (by simp [AList.keys])
    rw [apartD, if_pos h1, ih fun k' hk' => h k' (by simp [AList.keys] at hk' ⊢; exact .inr hk')]

theorem attrItem_apart {o : O} (h0 : o.post = none) (p : Path) (attrs : AList Str Str) :
    attrItem (cdata o) p attrs = (attrItem o p attrs).map (apD o) := by
  have h1 : attrItem (cdata o) p attrs = attrItem o p attrs := rfl
  rw [h1]
  unfold attrItem
  split
  · have hs : ∀ e ∈ attrs.filterMap (attr o p), Special (keysOf o) o.attrPrefix e.1 := by
      intro e he
      obtain ⟨a, -, ha⟩ := List.mem_filterMap.mp he
      simp only [attr, h0, Option.some.injEq] at ha
      subst ha
      exact .inr (by rw [List.isPrefixOf_iff_prefix]; exact ⟨a.1, rfl⟩)
    split
    · rfl
    next e es he =>
      rw [he] at hs
      rw [Option.map_some]
      rw [show apD o (AList.update [] (e :: es)) = _ from apartD_special _ _ _ _ fun k hk => by
        rcases keys_update _ _ k hk with h | h
        · simp [AList.keys] at h
        · obtain ⟨e', he', rfl⟩ := List.mem_map.mp h
          exact hs e' he']
  · rfl

/-- Where nothing was put there are only texts. -/
theorem runL_none {o : O} (h0 : o.post = none) (p : Path) (ns : List Node) (st : Option Dict × List Str)
    (h : (runL o p ns st).1 = none) :
    st.1 = none ∧ ∃ ts : List Str, ns = ts.map Node.text ∧ (runL o p ns st).2 = st.2 ++ ts := by
  induction ns generalizing st with
  | nil => exact ⟨h, [], rfl, by simp [runL]⟩
  | cons n ns ih =>
    simp only [runL] at h ⊢
    obtain ⟨h1, ts, h2, h3⟩ := ih _ h
    cases n with
    | text s => exact ⟨h1, s :: ts, by simp [h2], by rw [h3]; simp [run]⟩
    | comment s =>
      simp only [run, pushData_plainPost h0] at h1
      exact absurd h1 (by simp)
    | elem name attrs content =>
      simp only [run] at h1
      obtain ⟨v, seen, -, hc⟩ := close_put h0 (p ++ [(name, attrs)]) name
        (runL o (p ++ [(name, attrs)]) content (attrItem o (p ++ [(name, attrs)]) attrs, [])).1
        (runL o (p ++ [(name, attrs)]) content (attrItem o (p ++ [(name, attrs)]) attrs, [])).2
      rw [hc] at h1
      exact absurd h1 (by simp)

theorem plain_texts (keys : List Str) (pre : Str) (ts : List Str) (h : Plain keys pre (ts.map Node.text)) : ts.length ≤ 1 := by
  match ts, h with
  | [], _ => simp
  | [_], _ => simp
  | t :: t' :: ts, h =>
    simp only [List.map_cons, Plain] at h
    exact absurd rfl (h.2.1 t t' (ts.map Node.text) rfl)

theorem close_apart {o : O} (h0 : o.post = none) (hb : Blind o) (hf : o.forceCdata = false)
    (ht : forced o [] o.textKey .none = false) (p : Path) (name : Str) (hn : ¬ Special (keysOf o) o.attrPrefix name)
    (item : Option Dict) (data : List Str) (parent : Option Dict) (hd : item = none → data.length ≤ 1) :
    close (cdata o) p name (item.map (apD o)) data (parent.map (apD o)) = (close o p name item data parent).map (apD o) := by
  unfold close
  have e1 : (cdata o).strip = o.strip := rfl
  have e3 : (cdata o).textKey = o.textKey := rfl
  have e4 : (cdata o).tailKey = o.tailKey := rfl
  have e5 : (cdata o).separator = o.separator := rfl
  have e6 : (cdata o).forceCdata = true := rfl
  rw [e1, e3, e4, e5]
  have hd' : item = none → (if o.strip = true then data.map (Verif.strip isSpace) else data).length ≤ 1 := by
    intro h; split <;> simp [hd h]
  generalize (if o.strip = true then data.map (Verif.strip isSpace) else data) = data' at hd'
  have s1 : Special (keysOf o) o.attrPrefix o.textKey := .inl (by simp [keysOf])
  have s2 : Special (keysOf o) o.attrPrefix o.tailKey := .inl (by simp [keysOf])
  dsimp only
  unfold opened
  rw [e6, hf]
  cases item with
  | some it =>
    simp only [Option.map_some, reduceCtorEq, and_false, if_false]
    rw [pushText_apart h0 hb p it _ _ s1, pushText_apart h0 hb p _ _ _ s2]
    have := push_elem h0 hb p parent name (.dict (pushText o p (pushText o p it o.textKey data'[0]?) o.tailKey data'[1]?))
      (.dict (apD o (pushText o p it o.textKey data'[0]?))) (.dict (pushText o p it o.textKey data'[0]?)) hn
    rw [apart] at this
    exact this
  | none =>
    have hl := hd' rfl
    match data', hl with
    | [], _ =>
      simp only [Option.map_none, List.getElem?_nil, Option.getD_none, ne_eq, not_true_eq_false, or_self, false_and, if_false]
      have := push_elem h0 hb p parent name (.str (joinWith o.separator [])) (.str (joinWith o.separator [])) (.str (joinWith o.separator [])) hn
      rw [show apart o.textKey (keysOf o) o.attrPrefix (.str (joinWith o.separator [])) = .str (joinWith o.separator []) from by simp [joinWith, apart]] at this
      exact this
    | [[]], _ =>
      simp
      have := push_elem h0 hb p parent name (.str (joinWith o.separator [[]])) (.str (joinWith o.separator [[]])) (.str (joinWith o.separator [[]])) hn
      rw [show apart o.textKey (keysOf o) o.attrPrefix (.str (joinWith o.separator [[]])) = .str (joinWith o.separator [[]]) from by simp [joinWith, apart]] at this
      exact this
    | [c :: t], _ =>
      have hpt : (pushData (cdata o) p (some []) o.textKey (.str (c :: t)) (.str (c :: t))).getD []
          = [(o.textKey, .str (c :: t))] := by
        have : forced (cdata o) p o.textKey (.str (c :: t)) = false := by
          rw [← ht]; exact hb _ _ _ _ _
        simp [pushData_plainPost (show (cdata o).post = none from h0), put, AList.get?, AList.set, this]
      simp [hpt, pushText, joinWith]
      have := push_elem h0 hb p parent name (.str (c :: t)) (.dict [(o.textKey, .str (c :: t))]) (.str (c :: t)) hn
      rw [show apart o.textKey (keysOf o) o.attrPrefix (.str (c :: t)) = .dict [(o.textKey, .str (c :: t))] from by simp [apart]] at this
      exact this

mutual
theorem run_apart {o : O} (h0 : o.post = none) (hb : Blind o) (hf : o.forceCdata = false)
    (ht : forced o [] o.textKey .none = false) (p : Path) (n : Node) (hP : PlainN (keysOf o) o.attrPrefix n)
    (st : Option Dict × List Str) :
    run (cdata o) p n (st.1.map (apD o), st.2) = ((run o p n st).1.map (apD o), (run o p n st).2) := by
  cases n with
  | text s => simp [run]
  | comment s =>
    simp only [run]
    have s3 : Special (keysOf o) o.attrPrefix o.commentKey := .inl (by simp [keysOf])
    rw [show (cdata o).commentKey = o.commentKey from rfl, show (cdata o).strip = o.strip from rfl,
      push_special h0 hb p st.1 o.commentKey _ _ _ s3]
  | elem name attrs content =>
    obtain ⟨h1, h2, h3⟩ := hP
    have hn : ¬ Special (keysOf o) o.attrPrefix name := by
      rintro (h | h)
      · exact h1 h
      · rw [h2] at h; exact absurd h (by simp)
    simp only [run]
    rw [attrItem_apart h0]
    have hc := runL_apart h0 hb hf ht (p ++ [(name, attrs)]) content h3 (attrItem o (p ++ [(name, attrs)]) attrs, [])
    simp only at hc
    rw [hc]
    simp only
    rw [close_apart h0 hb hf ht _ name hn]
    intro hnone
    obtain ⟨-, ts, e1, e2⟩ := runL_none h0 _ _ _ hnone
    rw [e2]
    subst e1
    simpa using plain_texts _ _ ts h3
theorem runL_apart {o : O} (h0 : o.post = none) (hb : Blind o) (hf : o.forceCdata = false)
    (ht : forced o [] o.textKey .none = false) (p : Path) (ns : List Node) (hP : Plain (keysOf o) o.attrPrefix ns)
    (st : Option Dict × List Str) :
    runL (cdata o) p ns (st.1.map (apD o), st.2) = ((runL o p ns st).1.map (apD o), (runL o p ns st).2) := by
  cases ns with
  | nil => simp [runL]
  | cons n ns =>
    obtain ⟨h1, -, h3⟩ := hP
    simp only [runL]
    rw [run_apart h0 hb hf ht p n h1, runL_apart h0 hb hf ht p ns h3 (run o p n st)]
end

end Verif.XmlOptions
