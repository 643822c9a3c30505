import Verif.Props.Xml
import Verif.Props.XmlOptions
import Verif.Spec.XmlKeys
/-
C355-C357: the keys of attributes and texts.
-/
namespace Verif.XmlKeys
open Spec
open Xml (Dict)

theorem rekeyD_map (g : Str → Str) (d : Dict) : rekeyD g d = d.map (fun p => (g p.1, rekey g p.2)) := by
  induction d with
  | nil => rfl
  | cons p d ih => obtain ⟨k, v⟩ := p; rw [rekeyD, ih]; rfl

theorem rekeyL_map (g : Str → Str) (l : List Val) : rekeyL g l = l.map (rekey g) := by
  induction l with
  | nil => rfl
  | cons v l ih => rw [rekeyL, ih]; rfl

def Inj (g : Str → Str) : Prop := ∀ a b, g a = g b → a = b

theorem get?_rekey {g : Str → Str} (hg : Inj g) (d : Dict) (k : Str) :
    AList.get? (rekeyD g d) (g k) = (AList.get? d k).map (rekey g) := by
  induction d with
  | nil => rfl
  | cons p d ih =>
    obtain ⟨k', v⟩ := p
    rw [rekeyD]
    simp only [AList.get?]
    by_cases h : k' = k
    · simp [h]
    · rw [if_neg h, if_neg (fun e => h (hg _ _ e)), ih]

theorem set_rekey {g : Str → Str} (hg : Inj g) (d : Dict) (k : Str) (v : Val) :
    AList.set (rekeyD g d) (g k) (rekey g v) = rekeyD g (AList.set d k v) := by
  induction d with
  | nil => rfl
  | cons p d ih =>
    obtain ⟨k', w⟩ := p
    rw [rekeyD]
    simp only [AList.set]
    by_cases h : k' = k
    · subst h; simp [rekeyD]
    · rw [if_neg h, if_neg (fun e => h (hg _ _ e)), ih, rekeyD]

theorem update_rekey {g : Str → Str} (hg : Inj g) (d e : Dict) :
    AList.update (rekeyD g d) (rekeyD g e) = rekeyD g (AList.update d e) := by
  induction e generalizing d with
  | nil => rfl
  | cons p e ih =>
    obtain ⟨k, v⟩ := p
    rw [rekeyD]
    simp only [AList.update, List.foldl_cons] at ih ⊢
    rw [set_rekey hg]
    exact ih _

section Reading
open XmlOptions XmlNs

/-- The options with other keys. -/
def keyed (o : O) (pre text tail comment : Str) : O :=
  { o with attrPrefix := pre, textKey := text, tailKey := tail, commentKey := comment }

variable {o : O} {g : Str → Str} {pre text tail comment : Str}

theorem put_rekey (hg : Inj g) (hf : ∀ p k v w, forced o p (g k) w = forced o p k v) (p : Path) (item : Option Dict) (k : Str)
    (v s s' : Val) : XmlOptions.put (keyed o pre text tail comment) p (item.map (rekeyD g)) (g k) (rekey g v) s
      = rekeyD g (XmlOptions.put o p item k v s') := by
  unfold XmlOptions.put
  have h0 : (item.map (rekeyD g)).getD [] = rekeyD g (item.getD []) := by cases item <;> rfl
  dsimp only
  rw [h0, get?_rekey hg]
  have hff : forced (keyed o pre text tail comment) p (g k) s = forced o p k s' := hf p k s' s
  cases hd : AList.get? (item.getD []) k with
  | none =>
    simp only [Option.map_none, hff]
    split
    · rw [← set_rekey hg]; rfl
    · rw [← set_rekey hg]
  | some w =>
    cases w with
    | list l =>
      simp only [Option.map_some, rekey]
      rw [← set_rekey hg]
      simp [rekey, rekeyL_map]
    | _ =>
      simp only [Option.map_some, rekey]
      rw [← set_rekey hg]
      simp [rekey, rekeyL_map]

theorem push_rekey (h0 : o.post = none) (hg : Inj g) (hf : ∀ p k v w, forced o p (g k) w = forced o p k v) (p : Path)
    (item : Option Dict) (k : Str) (v s s' : Val) :
    XmlOptions.pushData (keyed o pre text tail comment) p (item.map (rekeyD g)) (g k) (rekey g v) s
      = (XmlOptions.pushData o p item k v s').map (rekeyD g) := by
  unfold XmlOptions.pushData
  rw [show (keyed o pre text tail comment).post = o.post from rfl, h0]
  simp only [Option.map_some]
  rw [put_rekey hg hf]

theorem attr_rekey (h0 : o.post = none) (hg : Inj g) (ha : ∀ a, g (o.attrPrefix ++ a) = pre ++ a) (p : Path) (attrs : AList Str Str) :
    XmlOptions.attrItem (keyed o pre text tail comment) p attrs = (XmlOptions.attrItem o p attrs).map (rekeyD g) := by
  have h1 : attrs.filterMap (XmlOptions.attr (keyed o pre text tail comment) p)
      = rekeyD g (attrs.filterMap (XmlOptions.attr o p)) := by
    induction attrs with
    | nil => rfl
    | cons a attrs ih =>
      have e1 : XmlOptions.attr o p a = some (o.attrPrefix ++ a.1, .str a.2) := by simp [XmlOptions.attr, h0]
      have e2 : XmlOptions.attr (keyed o pre text tail comment) p a = some (pre ++ a.1, .str a.2) := by
        simp [XmlOptions.attr, keyed, h0]
      rw [List.filterMap_cons_some e1, List.filterMap_cons_some e2, ih, rekeyD, ha, rekey]
      all_goals simp
  unfold XmlOptions.attrItem
  rw [show (keyed o pre text tail comment).attribs = o.attribs from rfl, h1]
  split
  · cases attrs.filterMap (XmlOptions.attr o p) with
    | nil => rfl
    | cons e es =>
      obtain ⟨k, v⟩ := e
      simp only [rekeyD, Option.map_some]
      have := update_rekey hg [] ((k, v) :: es)
      rw [rekeyD, rekeyD] at this
      rw [this]
  · rfl

theorem pushText_rekey (h0 : o.post = none) (hg : Inj g) (hf : ∀ p k v w, forced o p (g k) w = forced o p k v) (p : Path)
    (d : Dict) (k : Str) (t : Option Str) :
    XmlOptions.pushText (keyed o pre text tail comment) p (rekeyD g d) (g k) t = rekeyD g (XmlOptions.pushText o p d k t) := by
  unfold XmlOptions.pushText
  split
  · rename_i c s
    have := push_rekey (pre := pre) (text := text) (tail := tail) (comment := comment) h0 hg hf p (some d) k (.str (c :: s))
      (.str (c :: s)) (.str (c :: s))
    rw [rekey, Option.map_some] at this
    · rw [this]
      cases XmlOptions.pushData o p (some d) k (.str (c :: s)) (.str (c :: s)) <;> rfl
    all_goals simp
  · rfl

theorem close_rekey (h0 : o.post = none) (hg : Inj g) (hf : ∀ p k v w, forced o p (g k) w = forced o p k v)
    (h1 : g o.textKey = text) (h2 : g o.tailKey = tail) (p : Path) (name : Str) (hn : g name = name) (item : Option Dict)
    (data : List Str) (parent : Option Dict) :
    XmlOptions.close (keyed o pre text tail comment) p name (item.map (rekeyD g)) data (parent.map (rekeyD g))
      = (XmlOptions.close o p name item data parent).map (rekeyD g) := by
  unfold XmlOptions.close
  rw [show (keyed o pre text tail comment).strip = o.strip from rfl, show (keyed o pre text tail comment).separator = o.separator from rfl,
    show (keyed o pre text tail comment).textKey = text from rfl, show (keyed o pre text tail comment).tailKey = tail from rfl]
  generalize (if o.strip = true then data.map (Verif.strip isSpace) else data) = data'
  dsimp only
  have ho : XmlOptions.opened (keyed o pre text tail comment) (item.map (rekeyD g)) data' = (XmlOptions.opened o item data').map (rekeyD g) := by
    unfold XmlOptions.opened
    rw [show (keyed o pre text tail comment).forceCdata = o.forceCdata from rfl]
    cases item with
    | none => simp only [Option.map_none]; split <;> rfl
    | some d => simp
  rw [ho]
  have hp := fun v s s' => push_rekey (pre := pre) (text := text) (tail := tail) (comment := comment) h0 hg hf p parent name v s s'
  rw [hn] at hp
  cases XmlOptions.opened o item data' with
  | none =>
    simp only [Option.map_none]
    exact hp (.str _) _ _
  | some it =>
    simp only [Option.map_some]
    rw [← h1, ← h2, pushText_rekey h0 hg hf, pushText_rekey h0 hg hf]
    exact hp (.dict _) _ _

mutual
theorem run_rekey (h0 : o.post = none) (hg : Inj g) (hf : ∀ p k v w, forced o p (g k) w = forced o p k v)
    (ha : ∀ a, g (o.attrPrefix ++ a) = pre ++ a) (h1 : g o.textKey = text) (h2 : g o.tailKey = tail) (h3 : g o.commentKey = comment)
    (p : Path) (n : Node) (hk : KeepsN g n) (i : Option Dict) (d : List Str) :
    XmlOptions.run (keyed o pre text tail comment) p n (i.map (rekeyD g), d)
      = ((XmlOptions.run o p n (i, d)).1.map (rekeyD g), (XmlOptions.run o p n (i, d)).2) := by
  cases n with
  | text s => simp only [XmlOptions.run]
  | comment s =>
    simp only [XmlOptions.run]
    have := fun v s s' => push_rekey (pre := pre) (text := text) (tail := tail) (comment := comment) h0 hg hf p i o.commentKey v s s'
    rw [h3] at this
    exact congrArg (·, d) (this (.str _) _ _)
  | elem name attrs content =>
    simp only [XmlOptions.run]
    rw [attr_rekey h0 hg ha, runL_rekey h0 hg hf ha h1 h2 h3 _ content hk.2, close_rekey h0 hg hf h1 h2 _ _ hk.1]
theorem runL_rekey (h0 : o.post = none) (hg : Inj g) (hf : ∀ p k v w, forced o p (g k) w = forced o p k v)
    (ha : ∀ a, g (o.attrPrefix ++ a) = pre ++ a) (h1 : g o.textKey = text) (h2 : g o.tailKey = tail) (h3 : g o.commentKey = comment)
    (p : Path) (ns : List Node) (hk : Keeps g ns) (i : Option Dict) (d : List Str) :
    XmlOptions.runL (keyed o pre text tail comment) p ns (i.map (rekeyD g), d)
      = ((XmlOptions.runL o p ns (i, d)).1.map (rekeyD g), (XmlOptions.runL o p ns (i, d)).2) := by
  cases ns with
  | nil => simp only [XmlOptions.runL]
  | cons n ns =>
    simp only [XmlOptions.runL]
    rw [run_rekey h0 hg hf ha h1 h2 h3 p n hk.1]
    exact runL_rekey h0 hg hf ha h1 h2 h3 p ns hk.2 _ _
end

/-- **C355.** With another prefix for attributes and other keys for texts, tails and comments, a document is read as without them,
but for its keys: `g` is any one-to-one change of keys that takes the keys of the first options to those of the second, and keeps
the names of the elements. All other options are the same; there is no postprocessor, and `force_list` asks for the same. -/
theorem C355_keys (o : O) (h0 : o.post = none) (hc : XmlOptions.Spec.NotCall o.force) (g : Str → Str) (hg : ∀ a b, g a = g b → a = b)
    (hf : ∀ k, XmlOptions.Spec.Listed o.force (g k) ↔ XmlOptions.Spec.Listed o.force k) (pre : Str) (ha : ∀ a, g (o.attrPrefix ++ a) = pre ++ a)
    (doc : List Node) (hk : Keeps g doc) :
    parse { o with attrPrefix := pre, textKey := g o.textKey, tailKey := g o.tailKey, commentKey := g o.commentKey } (eventsL doc)
      = (parse o (eventsL doc)).map (rekeyD g) := by
  have hff : ∀ p k v w, forced o p (g k) w = forced o p k v := by
    intro p k v w
    rw [Bool.eq_iff_iff, listed_iff hc, listed_iff hc]
    exact hf k
  have := runL_rekey h0 hg hff ha rfl rfl rfl [] doc hk none []
  rw [XmlOptions.parse_eventsL, XmlOptions.parse_eventsL]
  exact congrArg Prod.fst this

/-- `@` and `_` are exchanged at the beginning, and `#text` and `$`. -/
def exKeys : Str → Str
  | '@' :: k => '_' :: k
  | '_' :: k => '@' :: k
  | ['$'] => "#text".toList
  | k => if k = "#text".toList then ['$'] else k

example : parse { attrPrefix := "_".toList, textKey := "$".toList }
      (eventsL [.elem "a".toList [("x".toList, "1".toList)] [.text "t".toList, .elem "b".toList [] [.text "u".toList]]])
    = some [("a".toList, .dict [("_x".toList, .str "1".toList), ("b".toList, .str "u".toList), ("$".toList, .str "t".toList)])] ∧
    rekeyD exKeys [("a".toList, .dict [("@x".toList, .str "1".toList), ("b".toList, .str "u".toList), ("#text".toList, .str "t".toList)])]
    = [("a".toList, .dict [("_x".toList, .str "1".toList), ("b".toList, .str "u".toList), ("$".toList, .str "t".toList)])] := by
  constructor <;> decide +kernel

theorem exKeys_inj : ∀ a b, exKeys a = exKeys b → a = b := by
  have hinv : ∀ a, exKeys (exKeys a) = a := by
    intro a
    rw [exKeys.eq_def a]
    split
    · rfl
    · rfl
    · decide +kernel
    · rename_i h1 h2 h3
      by_cases h : a = "#text".toList
      · subst h; decide +kernel
      · rw [if_neg h, exKeys.eq_def a]
        split
        · exact absurd rfl (h1 _)
        · exact absurd rfl (h2 _)
        · exact absurd rfl h3
        · rw [if_neg h]
  intro a b h
  rw [← hinv a, ← hinv b, h]

example : Keeps exKeys [.elem "a".toList [("x".toList, "1".toList)] [.text "t".toList, .elem "b".toList [] [.text "u".toList]]] := by
  simp only [Keeps, KeepsN, and_true]; decide +kernel

end Reading

section Writing
open Xml

variable {q : K} {g : Str → Str}

theorem special_iff (k : Str) : (k = "#text".toList ∨ k = "#tail".toList ∨ k.head? = some '@') ↔ isChildKey k = false := by
  unfold isChildKey
  rw [show "#text".toList = kText from rfl, show "#tail".toList = kTail from rfl]
  by_cases h1 : k = kText <;> by_cases h2 : k = kTail <;> by_cases h3 : k.head? = some '@' <;> simp [h1, h2, h3]

/-- The keys of `q` are the changed ones. -/
structure Takes (g : Str → Str) (q : K) : Prop where
  inj : Inj g
  text : g kText = q.text
  tail : g kTail = q.tail
  attr : ∀ a, g ('@' :: a) = q.pre ++ a

theorem isPrefix_append (a b : Str) : a.isPrefixOf (a ++ b) = true := by
  rw [List.isPrefixOf_iff_prefix]; exact List.prefix_append a b

theorem isChild_special (h : Takes g q) {k : Str} (hk : k = "#text".toList ∨ k = "#tail".toList ∨ k.head? = some '@') :
    isChild q (g k) = false := by
  unfold isChild
  rcases hk with hk | hk | hk
  · subst hk
    have : g "#text".toList = q.text := h.text
    rw [this]; simp
  · subst hk
    have : g "#tail".toList = q.tail := h.tail
    rw [this]; simp
  · cases k with
    | nil => simp at hk
    | cons c k =>
      simp at hk
      subst hk
      rw [h.attr, isPrefix_append]
      simp

theorem isChild_child (h : Takes g q) {k : Str} (hk : ¬(k = "#text".toList ∨ k = "#tail".toList ∨ k.head? = some '@')) (hg : g k = k) :
    k ≠ q.text ∧ k ≠ q.tail ∧ q.pre.isPrefixOf k = false := by
  refine ⟨fun e => ?_, fun e => ?_, ?_⟩
  · rw [← h.text, ← hg] at e; exact hk (.inl (h.inj _ _ e))
  · rw [← h.tail, ← hg] at e; exact hk (.inr (.inl (h.inj _ _ e)))
  · cases hp : q.pre.isPrefixOf k with
    | false => rfl
    | true =>
      obtain ⟨a, ha⟩ := List.isPrefixOf_iff_prefix.1 hp
      rw [← h.attr, ← hg] at ha
      have := h.inj _ _ ha
      subst this
      exact absurd (.inr (.inr rfl)) hk

theorem isChild_eq (h : Takes g q) {k : Str} (hg : isChildKey k = true → g k = k) : isChild q (g k) = isChildKey k := by
  cases hc : isChildKey k with
  | false => exact isChild_special h ((special_iff k).mpr hc)
  | true =>
    have hk := hg hc
    obtain ⟨h1, h2, h3⟩ := isChild_child h (k := k) (by rw [special_iff, hc]; simp) hk
    rw [hk]
    simp [isChild, h1, h2, h3]

theorem rekey_scalar {v : Val} (h : Scalar v) : rekey g v = v := by
  cases v <;> first | rfl | exact h.elim

theorem keptD_cons {k : Str} {v : Val} {d : Dict} (h : KeptD g ((k, v) :: d)) :
    (isChildKey k = false → Scalar v) ∧ (isChildKey k = true → g k = k ∧ Kept g v) ∧ KeptD g d := by
  simp only [KeptD] at h
  refine ⟨fun hc => ?_, fun hc => ?_, h.2⟩
  · rcases h.1 with h | h
    · exact h.2
    · have := (special_iff k).mpr hc
      rcases this with e | e | e
      · exact absurd e h.1.1
      · exact absurd e h.1.2.1
      · exact absurd e h.1.2.2
  · rcases h.1 with h | h
    · rw [(special_iff k).mp h.1] at hc; cases hc
    · exact h.2

theorem get?_kept {d : Dict} (h : KeptD g d) {k : Str} (hk : isChildKey k = false) :
    (AList.get? d k).map (rekey g) = AList.get? d k := by
  induction d with
  | nil => rfl
  | cons p d ih =>
    obtain ⟨k', v⟩ := p
    have := keptD_cons h
    simp only [AList.get?]
    split
    · rename_i e
      subst e
      rw [Option.map_some, rekey_scalar (this.1 hk)]
    · exact ih this.2.2

theorem attrs_rekey (h : Takes g q) (str : Val → Str) (d : Dict) (hd : KeptD g d) (acc : AList Str Str) :
    attrsOf q str (rekeyD g d) acc = Xml.attrsOf str d acc := by
  induction d generalizing acc with
  | nil => rfl
  | cons p d ih =>
    obtain ⟨k, v⟩ := p
    obtain ⟨k1, k2, k3⟩ := keptD_cons hd
    rw [rekeyD, attrsOf]
    by_cases hat : k.head? = some '@'
    · cases k with
      | nil => simp at hat
      | cons c k =>
        simp at hat
        subst hat
        have hs : Scalar v := k1 ((special_iff _).mp (.inr (.inr rfl)))
        have n1 : g ('@' :: k) ≠ q.text := by rw [← h.text]; intro e; cases h.inj _ _ e
        have n2 : g ('@' :: k) ≠ q.tail := by rw [← h.tail]; intro e; cases h.inj _ _ e
        have hset : setAttr q str acc (g ('@' :: k)) v = Xml.setAttr str acc k v := by
          cases v <;> first | exact hs.elim | simp [setAttr, Xml.setAttr, h.attr]
        rw [if_neg (by simp [n1, n2]), if_pos (by rw [h.attr]; exact isPrefix_append _ _), rekey_scalar hs, Xml.attrsOf, hset]
        exact ih k3 _
    · have hne : ∀ acc, Xml.attrsOf str ((k, v) :: d) acc = Xml.attrsOf str d acc := by
        intro acc
        cases k with
        | nil => rfl
        | cons c k =>
          simp at hat
          rw [Xml.attrsOf]
          intro n v' hh
          simp at hh
          exact hat hh.1.1
      rw [hne]
      by_cases h1 : k = kText
      · subst h1; rw [if_pos (.inl h.text)]; exact ih k3 _
      · by_cases h2 : k = kTail
        · subst h2; rw [if_pos (.inr h.tail)]; exact ih k3 _
        · have hc : isChildKey k = true := by simp [isChildKey, h1, h2, hat]
          obtain ⟨n1, n2, n3⟩ := isChild_child h (k := k) (by rw [special_iff, hc]; simp) (k2 hc).1
          rw [(k2 hc).1, if_neg (by simp [n1, n2]), if_neg (by simp [n3])]
          exact ih k3 _

theorem any_rekey (h : Takes g q) (d : Dict) (hd : KeptD g d) :
    (rekeyD g d).any (fun p => isChild q p.1) = d.any (fun p => isChildKey p.1) := by
  induction d with
  | nil => rfl
  | cons p d ih =>
    obtain ⟨k, v⟩ := p
    obtain ⟨k1, k2, k3⟩ := keptD_cons hd
    rw [rekeyD, List.any_cons, List.any_cons, ih k3]
    rw [isChild_eq h (fun hc => (k2 hc).1)]

theorem wrap_rekey (h : Takes g q) (c : Cfg) (depth : Nat) (key : Str) (d : Dict) (hd : KeptD g d) (r : Res (List Event)) :
    wrap q c depth key (rekeyD g d) r = Xml.wrap c depth key d r := by
  have e1 : AList.get? (rekeyD g d) q.text = AList.get? d kText := by
    rw [← h.text, get?_rekey h.inj, get?_kept hd (by decide +kernel)]
  have e2 : AList.get? (rekeyD g d) q.tail = AList.get? d kTail := by
    rw [← h.tail, get?_rekey h.inj, get?_kept hd (by decide +kernel)]
  have e3 : ¬ q.tail = q.text := by
    rw [← h.tail, ← h.text]
    intro e
    exact absurd (h.inj _ _ e) (by decide +kernel)
  unfold wrap Xml.wrap
  rw [e1, if_neg e3, e2, attrs_rekey h _ d hd, any_rekey h d hd]

theorem leaf_rekey (h : Takes g q) (c : Cfg) (depth : Nat) (key : Str) (v : Val) (hv : Scalar v) (r : Res (List Event)) :
    wrap q c depth key (leafDict q c (rekey g v)) r = Xml.wrap c depth key (Xml.leafDict c v) r := by
  rw [rekey_scalar hv]
  have hl : leafDict q c v = rekeyD g (Xml.leafDict c v) := by
    cases v with
    | bool b => cases b <;> simp [leafDict, Xml.leafDict, rekeyD, rekey, h.text]
    | list l => exact hv.elim
    | dict d => exact hv.elim
    | _ => simp [leafDict, Xml.leafDict, rekeyD, rekey, h.text]
  rw [hl, wrap_rekey h]
  cases v with
  | bool b => cases b <;> exact ⟨.inl ⟨.inl rfl, trivial⟩, trivial⟩
  | none => trivial
  | list l => exact hv.elim
  | dict d => exact hv.elim
  | _ => exact ⟨.inl ⟨.inl rfl, trivial⟩, trivial⟩

mutual
theorem emit_rekey (h : Takes g q) (c : Cfg) (full : Bool) (depth : Nat) (key : Str) : (v : Val) → Kept g v →
    emit q c full depth key (rekey g v) = Xml.emit c full depth key v
  | .list l, hv => by
    rw [rekey, emit, Xml.emit]; exact items_rekey h c full depth key 0 l hv
  | .dict d, hv => by
    rw [rekey, emit, Xml.emit, children_rekey h c (depth + 1) d hv]; exact wrap_rekey h c depth key d hv _
  | .none, _ => by simp only [rekey, emit, Xml.emit]; exact leaf_rekey h c depth key .none trivial _
  | .bool b, _ => by simp only [rekey, emit, Xml.emit]; exact leaf_rekey h c depth key (.bool b) trivial _
  | .int b, _ => by simp only [rekey, emit, Xml.emit]; exact leaf_rekey h c depth key (.int b) trivial _
  | .str b, _ => by simp only [rekey, emit, Xml.emit]; exact leaf_rekey h c depth key (.str b) trivial _
theorem items_rekey (h : Takes g q) (c : Cfg) (full : Bool) (depth : Nat) (key : Str) (i : Nat) : (l : List Val) → KeptL g l →
    emitItems q c full depth key i (rekeyL g l) = Xml.emitItems c full depth key i l
  | [], _ => by rw [rekeyL, emitItems, Xml.emitItems]
  | .list r :: l, hv => by simp only [KeptL] at hv
  | .dict d :: l, hv => by
    simp only [KeptL, Kept] at hv
    rw [rekeyL, rekey, emitItems, Xml.emitItems, children_rekey h c (depth + 1) d hv.1, wrap_rekey h c depth key d hv.1,
      items_rekey h c full depth key (i + 1) l hv.2]
  | .none :: l, hv => by
    simp only [KeptL] at hv
    have := leaf_rekey h c depth key .none trivial (.ok [])
    simp only [rekey] at this
    simp only [rekeyL, rekey, emitItems, Xml.emitItems]
    rw [this, items_rekey h c full depth key (i + 1) l hv.2]
  | .bool b :: l, hv => by
    simp only [KeptL] at hv
    have := leaf_rekey h c depth key (.bool b) trivial (.ok [])
    simp only [rekey] at this
    simp only [rekeyL, rekey, emitItems, Xml.emitItems]
    rw [this, items_rekey h c full depth key (i + 1) l hv.2]
  | .int b :: l, hv => by
    simp only [KeptL] at hv
    have := leaf_rekey h c depth key (.int b) trivial (.ok [])
    simp only [rekey] at this
    simp only [rekeyL, rekey, emitItems, Xml.emitItems]
    rw [this, items_rekey h c full depth key (i + 1) l hv.2]
  | .str b :: l, hv => by
    simp only [KeptL] at hv
    have := leaf_rekey h c depth key (.str b) trivial (.ok [])
    simp only [rekey] at this
    simp only [rekeyL, rekey, emitItems, Xml.emitItems]
    rw [this, items_rekey h c full depth key (i + 1) l hv.2]
theorem children_rekey (h : Takes g q) (c : Cfg) (depth : Nat) : (d : List (Str × Val)) → KeptD g d →
    emitChildren q c depth (rekeyD g d) = Xml.emitChildren c depth d
  | [], _ => by rw [rekeyD, emitChildren, Xml.emitChildren]
  | (k, v) :: d, hv => by
    obtain ⟨k1, k2, k3⟩ := keptD_cons hv
    rw [rekeyD, emitChildren, Xml.emitChildren, isChild_eq h (fun hc => (k2 hc).1), children_rekey h c depth d k3]
    by_cases hc : isChildKey k = true
    · rw [if_pos hc, if_pos hc, (k2 hc).1, emit_rekey h c true depth k v (k2 hc).2]
    · rw [if_neg hc, if_neg hc]
end

/-- **C356.** With another prefix for attributes and other keys for texts and tails, the document with the changed keys is written
as the document with the usual ones is written without them: `g` is any one-to-one change of keys that takes the usual keys to those
of the options and keeps the names of the elements. Attributes and texts are assumed to be neither lists nor dictionaries (of
prefixes), and items of lists to be no lists. -/
theorem C356_keys_partial (q : K) (g : Str → Str) (hg : ∀ a b, g a = g b → a = b) (h1 : g "#text".toList = q.text)
    (h2 : g "#tail".toList = q.tail) (h3 : ∀ a, g ('@' :: a) = q.pre ++ a) (c : Cfg) (tag : Str) (v : Val) (hv : Kept g v) :
    unparse q c true [(tag, rekey g v)] = Xml.unparse c true [(tag, v)] := by
  simp only [unparse, Xml.unparse, List.length_singleton, ne_eq, not_true_eq_false, and_false, if_false, emitRoots, Xml.emitRoots]
  rw [emit_rekey ⟨hg, h1, h2, h3⟩ c true 0 tag v hv]

example : unparse ⟨"_".toList, "$".toList, "#tail".toList⟩ ⟨false, [], [], fun _ => "?".toList⟩ true
      [("a".toList, .dict [("_x".toList, .int 1), ("b".toList, .list [.str "u".toList, .none]), ("$".toList, .str "t".toList)])]
    = .ok [.start "a".toList [("x".toList, "?".toList)], .chars "t".toList, .start "b".toList [], .chars "u".toList, .stop "b".toList,
        .start "b".toList [], .stop "b".toList, .stop "a".toList] := by decide +kernel

example : Kept exKeys (.dict [("@x".toList, .int 1), ("b".toList, .list [.str "u".toList, .none]), ("#text".toList, .str "t".toList)]) ∧
    exKeys "#text".toList = "$".toList ∧ exKeys "#tail".toList = "#tail".toList ∧ ∀ a, exKeys ('@' :: a) = "_".toList ++ a := by
  refine ⟨⟨.inl ⟨.inr (.inr rfl), trivial⟩, .inr ⟨by decide +kernel, by decide +kernel, trivial, trivial, trivial⟩,
    .inl ⟨.inl rfl, trivial⟩, trivial⟩, by decide +kernel, by decide +kernel, fun a => rfl⟩

/-- **C356, violated.** The prefixes of namespaces: with another prefix of attributes they are not declared under the key `xmlns` of
that prefix, of which the text of the dictionary is written. -/
theorem C356_declarations_violated (q : K) (c : Cfg) (hp : c.pretty = false) (tag : Str) (e : Dict) (hx : q.pre ≠ "@".toList)
    (h1 : q.pre ++ "xmlns".toList ≠ q.text) (h2 : q.pre ++ "xmlns".toList ≠ q.tail) :
    unparse q c true [(tag, .dict [(q.pre ++ "xmlns".toList, .dict e)])]
      = .ok [.start tag [("xmlns".toList, c.str (.dict e))], .stop tag] ∧
    Xml.unparse c true [(tag, .dict [("@xmlns".toList, .dict [("p".toList, .str "u".toList)])])]
      = .ok [.start tag [("xmlns:p".toList, c.str (.str "u".toList))], .stop tag] := by
  have hx' : q.pre ++ "xmlns".toList ≠ kXmlns := by
    intro h
    rw [show kXmlns = "@".toList ++ "xmlns".toList from rfl] at h
    exact hx (List.append_cancel_right h)
  constructor
  · simp only [unparse, List.length_singleton, ne_eq, not_true_eq_false, and_false, if_false, emitRoots, emit, emitChildren, isChild,
      isPrefix_append, Bool.not_true, Bool.and_false, Bool.false_eq_true]
    simp only [wrap, attrsOf, if_neg (show ¬(q.pre ++ "xmlns".toList = q.text ∨ q.pre ++ "xmlns".toList = q.tail) from
      fun e => e.elim h1 h2), isPrefix_append, if_true, setAttr, if_neg hx', List.drop_left, AList.get?, if_neg h1, if_neg h2, charsOf,
      AList.set, ws, hp, ite_self]
    simp [isChild, isPrefix_append, bind, Except.bind, pure, Except.pure]
  · simp only [Xml.unparse, List.length_singleton, ne_eq, not_true_eq_false, and_false, if_false, Xml.emitRoots, Xml.emit, Xml.wrap, ws, hp]
    rfl

end Writing

/-! ### C357: write, then read, with other keys -/

section Both
open Xml

variable {q : K} {g : Str → Str}

theorem merge_feed (fl : Str → Bool) (evs : List Event) (buf : Str) (h : H) :
    (evs.foldl (feed fl) (buf, h)).2 = (merge buf evs).foldl (Xml.handle fl) h := by
  induction evs generalizing buf h with
  | nil => rfl
  | cons e evs ih =>
    rw [List.foldl_cons]
    cases e with
    | chars t => exact ih _ _
    | start name attrs =>
      rw [feed, merge, ih]
      by_cases hb : buf = [] <;> simp [hb, flush, Xml.handle]
    | stop name =>
      rw [feed, merge, ih]
      by_cases hb : buf = [] <;> simp [hb, flush, Xml.handle]

theorem merge_stop {n : Str} (evs : List Event) (buf : Str) (h : Event.stop n ∈ merge buf evs) : Event.stop n ∈ evs := by
  induction evs generalizing buf with
  | nil => exact h
  | cons e evs ih =>
    cases e with
    | chars t => exact List.mem_cons_of_mem _ (ih _ h)
    | start name attrs =>
      rw [merge] at h
      rcases List.mem_append.1 h with h | h
      · split at h <;> simp at h
      · rcases List.mem_cons.1 h with h | h
        · cases h
        · exact List.mem_cons_of_mem _ (ih _ h)
    | stop name =>
      rw [merge] at h
      rcases List.mem_append.1 h with h | h
      · split at h <;> simp at h
      · rcases List.mem_cons.1 h with h | h
        · rw [h]; exact List.mem_cons_self
        · exact List.mem_cons_of_mem _ (ih _ h)

/-- The state with other keys. -/
def rekeyS (g : Str → Str) (s : XmlOptions.S) : XmlOptions.S :=
  ⟨s.path, s.item.map (rekeyD g), s.data, s.stack.map fun p => (p.1.map (rekeyD g), p.2)⟩

theorem handle_rekey {o : XmlOptions.O} {pre text tail comment : Str} (h0 : o.post = none) (hg : Inj g)
    (hf : ∀ p k v w, XmlOptions.forced o p (g k) w = XmlOptions.forced o p k v) (ha : ∀ a, g (o.attrPrefix ++ a) = pre ++ a)
    (h1 : g o.textKey = text) (h2 : g o.tailKey = tail) (evs : List Event) (hn : ∀ n, Event.stop n ∈ evs → g n = n)
    (s : XmlOptions.S) :
    (evs.map XmlNs.Ev.ev).foldl (XmlOptions.handle (keyed o pre text tail comment)) (rekeyS g s)
      = rekeyS g ((evs.map XmlNs.Ev.ev).foldl (XmlOptions.handle o) s) := by
  induction evs generalizing s with
  | nil => rfl
  | cons e evs ih =>
    have : XmlOptions.handle (keyed o pre text tail comment) (rekeyS g s) (.ev e) = rekeyS g (XmlOptions.handle o s (.ev e)) := by
      cases e with
      | chars t => rfl
      | start name attrs =>
        simp only [XmlOptions.handle, XmlOptions.startElement, rekeyS, List.map_cons]
        rw [attr_rekey h0 hg ha]
      | stop name =>
        have hname := hn name List.mem_cons_self
        obtain ⟨path, item, data, stack⟩ := s
        cases stack with
        | nil => rfl
        | cons p st =>
          obtain ⟨parent, pd⟩ := p
          simp only [XmlOptions.handle, XmlOptions.endElement, rekeyS, List.map_cons]
          rw [close_rekey h0 hg hf h1 h2 path name hname]
    rw [List.map_cons, List.foldl_cons, List.foldl_cons, this]
    exact ih (fun n h => hn n (List.mem_cons_of_mem _ h)) _

theorem handle_never : XmlOptions.handle { force := .call fun _ _ _ => false } = XmlOptions.handle {} := by
  funext s e
  cases e with
  | comment t => rfl
  | ev e => cases e <;> rfl

theorem charsOf_stop {n : Str} {v : Option Val} {evs : List Event} (h : charsOf v = .ok evs) : Event.stop n ∉ evs := by
  cases v with
  | none => cases h; simp
  | some v =>
    cases v <;> simp only [charsOf] at h <;> (try split at h) <;> cases h <;> simp

theorem ws_stop {n : Str} (c : Cfg) (s : Str) : Event.stop n ∉ ws c s := by
  unfold ws; split <;> simp

theorem wrap_stops {c : Cfg} {depth : Nat} {key : Str} {d : Dict} {r : Res (List Event)} {evs : List Event}
    (h : Xml.wrap c depth key d r = .ok evs) (hk : g key = key) (hr : ∀ es, r = .ok es → ∀ n, Event.stop n ∈ es → g n = n) :
    ∀ n, Event.stop n ∈ evs → g n = n := by
  unfold Xml.wrap at h
  cases h1 : charsOf (AList.get? d kText) with
  | error e => rw [h1] at h; cases h
  | ok t =>
    cases h2 : r with
    | error e => rw [h1, h2] at h; cases h
    | ok kids =>
      cases h3 : charsOf (AList.get? d kTail) with
      | error e => rw [h1, h2, h3] at h; cases h
      | ok tl =>
        rw [h1, h2, h3] at h
        cases h
        intro n hn
        have w : ∀ s, Event.stop n ∉ ws c s := ws_stop c
        have w1 : ∀ (b : Bool) s, Event.stop n ∉ (if b = true then ws c s else []) := by intro b s; split <;> simp [w]
        have w2 : Event.stop n ∉ (if depth = 0 then [] else ws c c.newl) := by split <;> simp [w]
        simp only [List.mem_append, List.mem_singleton] at hn
        rcases hn with ((((((((hn | hn) | hn) | hn) | hn) | hn) | hn) | hn) | hn)
        · exact absurd hn (w _)
        · cases hn
        · exact absurd hn (w1 _ _)
        · exact absurd hn (charsOf_stop h1)
        · exact hr kids h2 n hn
        · exact absurd hn (w1 _ _)
        · exact absurd hn (charsOf_stop h3)
        · cases hn; exact hk
        · exact absurd hn w2

theorem bind2_ok {a b : Res (List Event)} {evs : List Event} (h : (do let x ← a; let y ← b; return x ++ y) = Except.ok evs) :
    ∃ x y, a = .ok x ∧ b = .ok y ∧ evs = x ++ y := by
  cases a with
  | error e => cases h
  | ok x =>
    cases b with
    | error e => cases h
    | ok y => cases h; exact ⟨x, y, rfl, rfl, rfl⟩

theorem leaf_stops {c : Cfg} {depth : Nat} {key : Str} {d : Dict} {evs : List Event} (h : Xml.wrap c depth key d (.ok []) = .ok evs)
    (hk : g key = key) : ∀ n, Event.stop n ∈ evs → g n = n :=
  wrap_stops h hk (fun es he => by cases he; simp)

theorem join_stops {a b : Res (List Event)} {evs : List Event} (h : (do let x ← a; let y ← b; return x ++ y) = Except.ok evs)
    (ha : ∀ es, a = .ok es → ∀ n, Event.stop n ∈ es → g n = n) (hb : ∀ es, b = .ok es → ∀ n, Event.stop n ∈ es → g n = n) :
    ∀ n, Event.stop n ∈ evs → g n = n := by
  obtain ⟨x, y, h1, h2, rfl⟩ := bind2_ok h
  intro n hn
  rcases List.mem_append.1 hn with hn | hn
  · exact ha x h1 n hn
  · exact hb y h2 n hn

mutual
theorem emit_stops (c : Cfg) (full : Bool) (depth : Nat) (key : Str) (hk : g key = key) : (v : Val) → Kept g v → (evs : List Event) →
    Xml.emit c full depth key v = .ok evs → ∀ n, Event.stop n ∈ evs → g n = n
  | .list l, hv, evs, h => by rw [Xml.emit] at h; exact items_stops c full depth key hk 0 l hv evs h
  | .dict d, hv, evs, h => by
    rw [Xml.emit] at h; exact wrap_stops h hk (fun es he => children_stops c (depth + 1) d hv es he)
  | .none, _, evs, h => by simp only [Xml.emit] at h; exact leaf_stops h hk
  | .bool b, _, evs, h => by simp only [Xml.emit] at h; exact leaf_stops h hk
  | .int b, _, evs, h => by simp only [Xml.emit] at h; exact leaf_stops h hk
  | .str b, _, evs, h => by simp only [Xml.emit] at h; exact leaf_stops h hk
theorem items_stops (c : Cfg) (full : Bool) (depth : Nat) (key : Str) (hk : g key = key) (i : Nat) : (l : List Val) → KeptL g l →
    (evs : List Event) → Xml.emitItems c full depth key i l = .ok evs → ∀ n, Event.stop n ∈ evs → g n = n
  | [], _, evs, h => by rw [Xml.emitItems] at h; cases h; simp
  | .list r :: l, hv, evs, h => by simp only [KeptL] at hv
  | .dict d :: l, hv, evs, h => by
    simp only [KeptL, Kept] at hv
    rw [Xml.emitItems] at h
    split at h
    · cases h
    · exact join_stops h (fun es he => wrap_stops he hk (fun es he => children_stops c (depth + 1) d hv.1 es he))
        (fun es he => items_stops c full depth key hk (i + 1) l hv.2 es he)
  | .none :: l, hv, evs, h => by
    simp only [KeptL] at hv
    simp only [Xml.emitItems] at h
    split at h
    · cases h
    · exact join_stops h (fun es he => leaf_stops he hk) (fun es he => items_stops c full depth key hk (i + 1) l hv.2 es he)
  | .bool b :: l, hv, evs, h => by
    simp only [KeptL] at hv
    simp only [Xml.emitItems] at h
    split at h
    · cases h
    · exact join_stops h (fun es he => leaf_stops he hk) (fun es he => items_stops c full depth key hk (i + 1) l hv.2 es he)
  | .int b :: l, hv, evs, h => by
    simp only [KeptL] at hv
    simp only [Xml.emitItems] at h
    split at h
    · cases h
    · exact join_stops h (fun es he => leaf_stops he hk) (fun es he => items_stops c full depth key hk (i + 1) l hv.2 es he)
  | .str b :: l, hv, evs, h => by
    simp only [KeptL] at hv
    simp only [Xml.emitItems] at h
    split at h
    · cases h
    · exact join_stops h (fun es he => leaf_stops he hk) (fun es he => items_stops c full depth key hk (i + 1) l hv.2 es he)
theorem children_stops (c : Cfg) (depth : Nat) : (d : List (Str × Val)) → KeptD g d → (evs : List Event) →
    Xml.emitChildren c depth d = .ok evs → ∀ n, Event.stop n ∈ evs → g n = n
  | [], _, evs, h => by rw [Xml.emitChildren] at h; cases h; simp
  | (k, v) :: d, hv, evs, h => by
    obtain ⟨k1, k2, k3⟩ := keptD_cons hv
    rw [Xml.emitChildren] at h
    by_cases hc : isChildKey k = true
    · rw [if_pos hc] at h
      exact join_stops h (fun es he => emit_stops c true depth k (k2 hc).1 v (k2 hc).2 es he)
        (fun es he => children_stops c depth d k3 es he)
    · rw [if_neg hc] at h
      exact children_stops c depth d k3 evs h
end

/-- **C357.** A canonical document with other keys for attributes and texts, written with these keys and read with them, is
unchanged. -/
theorem C357_back (q : K) (g : Str → Str) (hg : ∀ a b, g a = g b → a = b) (h1 : g "#text".toList = q.text)
    (h2 : g "#tail".toList = q.tail) (h3 : ∀ a, g ('@' :: a) = q.pre ++ a) (c : Cfg) (hi : ∀ x ∈ c.indent, isSpace x = true)
    (hl : ∀ x ∈ c.newl, isSpace x = true) (tag : Str) (v : Val) (ht : GoodName tag) (hgt : g tag = tag)
    (hc : Canon (fun _ => false) v) (hv : Kept g v) :
    ∃ evs, unparse q c true [(tag, rekey g v)] = .ok evs ∧
      XmlOptions.parse { attrPrefix := q.pre, textKey := q.text, tailKey := q.tail } ((merge [] evs).map .ev)
        = some [(tag, rekey g v)] := by
  obtain ⟨evs, e1, e2⟩ := C80_roundtrip c (fun _ => false) hi hl rfl rfl tag v ht hc
  simp only [Bool.false_eq_true, if_false] at e1 e2
  refine ⟨evs, by rw [C356_keys_partial q g hg h1 h2 h3 c tag v hv, e1], ?_⟩
  have hstop : ∀ n, Event.stop n ∈ evs → g n = n := by
    simp only [Xml.unparse, List.length_singleton, ne_eq, not_true_eq_false, and_false, if_false, Xml.emitRoots] at e1
    exact join_stops e1 (fun es he => emit_stops c true 0 tag hgt v hv es he) (fun es he => by cases he; simp)
  have hd := XmlOptions.default_handler (fun _ => false) (merge [] evs)
  have hp : Xml.parse (fun _ => false) evs = ((merge [] evs).foldl (Xml.handle fun _ => false) ⟨none, [], []⟩).item := by
    unfold Xml.parse; rw [merge_feed]
  rw [← hp, e2] at hd
  unfold XmlOptions.parse at hd ⊢
  rw [handle_never] at hd
  have hr := handle_rekey (o := {}) (pre := q.pre) (text := q.text) (tail := q.tail) (comment := "#comment".toList) rfl hg
    (fun _ _ _ _ => rfl) h3 h1 h2 (merge [] evs) (fun n hn => hstop n (merge_stop evs [] hn)) ⟨[], none, [], []⟩
  have := congrArg XmlOptions.S.item hr
  simp only [rekeyS, Option.map_none, List.map_nil] at this
  rw [hd] at this
  simp only [Option.map_some, rekeyD, hgt] at this
  exact this

/-- `{'_x': '1', 'b': ['', 'v w'], '$': 't'}` under `a`, set out. -/
example : ∃ evs, unparse ⟨"_".toList, "$".toList, "#tail".toList⟩ pretty true
      [("a".toList, .dict [("_x".toList, .str "1".toList), ("b".toList, .list [.str [], .str "v w".toList]), ("$".toList, .str "t".toList)])]
      = .ok evs ∧
    XmlOptions.parse { attrPrefix := "_".toList, textKey := "$".toList } ((merge [] evs).map .ev)
      = some [("a".toList, .dict [("_x".toList, .str "1".toList), ("b".toList, .list [.str [], .str "v w".toList]), ("$".toList, .str "t".toList)])] := by
  have hk : Kept exKeys (.dict [("@x".toList, .str "1".toList), ("b".toList, .list [.str [], .str "v w".toList]), ("#text".toList, .str "t".toList)]) :=
    ⟨.inl ⟨.inr (.inr rfl), trivial⟩, .inr ⟨by decide +kernel, by decide +kernel, trivial, trivial, trivial⟩, .inl ⟨.inl rfl, trivial⟩, trivial⟩
  have hcan : Canon (fun _ => false)
      (.dict [("@x".toList, .str "1".toList), ("b".toList, .list [.str [], .str "v w".toList]), ("#text".toList, .str "t".toList)]) := by
    refine Canon.node [("x".toList, "1".toList)] [("b".toList, .list [.str [], .str "v w".toList])] (some "t".toList) (by simp)
      (by decide) (by decide) ?_ ?_ ?_
    · intro p hp
      simp only [List.mem_cons, List.not_mem_nil, or_false] at hp
      subst hp; exact ⟨by decide, by decide⟩
    · intro p hp
      simp only [List.mem_cons, List.not_mem_nil, or_false] at hp
      subst hp
      refine CanonChild.many false _ (by simp) ?_
      intro w hw
      simp only [List.mem_cons, List.not_mem_nil, or_false] at hw
      rcases hw with rfl | rfl <;> exact Canon.text _ (by unfold Stripped; decide +kernel)
    · intro t ht
      cases ht
      exact ⟨by unfold Stripped; decide +kernel, by decide⟩
  exact C357_back ⟨"_".toList, "$".toList, "#tail".toList⟩ exKeys exKeys_inj (by decide +kernel) (by decide +kernel) (fun _ => rfl)
    pretty (by decide +kernel) (by decide +kernel) "a".toList _ ⟨by decide, by decide⟩ (by decide +kernel) hcan hk

end Both
end Verif.XmlKeys
