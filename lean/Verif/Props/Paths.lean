import Verif.Lemmas.Paths
/-
C140 Dotted names are successive lookups; C141 a dotted name that leads nowhere raises KeyError; C142 indices in dotted
names; C143 empty parts stand for the parent; C144 assignment by dotted name; C145 canonical names resolve to the object
they name; C146 canonical names are the names of the instances from the root.
-/
namespace Verif.Paths
open Spec

/-- The names of methods of mappings. -/
def methods : Kind → Str → Bool
  | .obj, p => ["items".toList, "keys".toList, "copy".toList].contains p
  | .dict, p => ["items".toList, "keys".toList, "copy".toList].contains p
  | _, _ => false

/-- An object with an open object, a closed one, a dictionary with an array, and a property without value. -/
def sample : Node := .obj false [] [
  ("a".toList, .obj true [] [("x".toList, .atom 1), ("items".toList, .atom 2)]),
  ("c".toList, .obj false [] [("x".toList, .atom 3)]),
  ("d".toList, .dict [(.name "l".toList, .arr [.atom 4, .atom 5])]),
  ("n".toList, .none)]

/-! C140 -/

/-- C140: a dotted name gives what the lookups of its names one after the other give, when none of them is the name of
an attribute of the value it is looked up in. -/
theorem C140_names_partial (attr : Kind → Str → Bool) (root v : Node) (ps : List Str) (h2 : 2 ≤ ps.length)
    (hp : ∀ p ∈ ps, Plain p) (ho : Open attr root ps) (hv : descend root ps = some v) :
    getItem attr root (dotted ps) = .ok (.node v) := by
  obtain ⟨c, hc, hr, _⟩ := walk_descend ps (addr := []) rfl ho hv
  rw [getItem_dotted h2 hp, hc]
  exact congrArg Except.ok hr

/-- What a name that is an attribute gives: the attribute, whatever the item under that name. -/
theorem C140_shadowed (attr : Kind → Str → Bool) (root n : Node) (ps : List Str) (p : Str) (hne : ps ≠ [])
    (hp : ∀ q ∈ ps ++ [p], Plain q) (ho : Open attr root ps) (hn : descend root ps = some n) (hk : n.kind ≠ .none)
    (ha : attr n.kind p = true) : getItem attr root (dotted (ps ++ [p])) = .ok (.bound p) := by
  have h2 : 2 ≤ (ps ++ [p]).length := by
    cases ps with
    | nil => exact absurd rfl hne
    | cons a l => simp
  obtain ⟨hw, hat⟩ := walk_through (ks := [Key.name p]) ps (addr := []) rfl ho hn hk
  rw [getItem_dotted h2 hp, List.map_append]
  simp only [List.map_cons, List.map_nil]
  rw [hw]
  simp only [walk, step, hat, stepName, ha, if_true, isNone, Bool.false_eq_true, if_false, read]

/-- C140 is violated: a property named as a method of mappings is not reached by a dotted name. -/
theorem C140_attribute_violated : ¬ ∀ (attr : Kind → Str → Bool) (root v : Node) (ps : List Str), 2 ≤ ps.length →
    (∀ p ∈ ps, Plain p) → descend root ps = some v → getItem attr root (dotted ps) = .ok (.node v) := by
  intro h
  have := h methods sample (.atom 2) ["a".toList, "items".toList] (by decide)
    (by intro p hp; simp at hp; rcases hp with rfl | rfl <;> exact ⟨by decide, by decide, by decide⟩) rfl
  have h' : getItem methods sample (dotted ["a".toList, "items".toList]) = .ok (.bound "items".toList) := rfl
  rw [h'] at this
  simp at this

example : getItem methods sample "a.x".toList = .ok (.node (.atom 1)) := rfl
example : getItem methods sample "a.items".toList = .ok (.bound "items".toList) := rfl
example : Open methods sample ["a".toList, "x".toList] := by
  refine ⟨rfl, fun m hm => ?_⟩
  simp only [sample, item, AList.get?, if_true, Option.some.injEq] at hm
  subst hm
  exact ⟨fun _ => by simp [Node.kind], rfl, fun m _ => ⟨fun h => absurd rfl h, trivial⟩⟩

/-! C141 -/

/-- C141: a dotted name raises KeyError at the first name that is not there, when the value is not an object that allows
additional properties. -/
theorem C141_missing_partial (attr : Kind → Str → Bool) (root n : Node) (qs rs : List Str) (p : Str)
    (h2 : 2 ≤ (qs ++ p :: rs).length) (hp : ∀ q ∈ qs ++ p :: rs, Plain q) (ho : Open attr root qs)
    (hn : descend root qs = some n) (hk : n.kind ≠ .none) (ha : attr n.kind p = false) (hi : item n p = none)
    (hc : ∀ r items, n ≠ .obj true r items) :
    getItem attr root (dotted (qs ++ p :: rs)) = .error .keyError := by
  obtain ⟨hw, hat⟩ := walk_through (ks := Key.name p :: rs.map .name) qs (addr := []) rfl ho hn hk
  have hp0 : p ≠ [] := (hp p (by simp)).1
  rw [getItem_dotted h2 hp, List.map_append, List.map_cons, hw]
  have hs : step attr root (.at ([] ++ qs.map .name)) (.name p) = none := by
    simp only [step, hat]
    cases n with
    | none => exact absurd rfl hk
    | atom i => simp [stepName, ha]
    | arr l => simp [stepName, ha]
    | dict items => simp only [item] at hi; simp [stepName, ha, AList.contains, hi]
    | obj a r items =>
      simp only [item] at hi
      cases a with
      | true => exact absurd rfl (hc r items)
      | false => simp [stepName, ha, AList.contains, hi, hp0]
  simp only [walk, hs]

/-- What an object that allows additional properties gives: None, whatever follows. -/
theorem C141_additional (attr : Kind → Str → Bool) (root : Node) (qs rs : List Str) (p : Str) (r : List Str)
    (items : List (Str × Node)) (h2 : 2 ≤ (qs ++ p :: rs).length) (hp : ∀ q ∈ qs ++ p :: rs, Plain q)
    (ho : Open attr root qs) (hn : descend root qs = some (.obj true r items)) (ha : attr .obj p = false)
    (hi : AList.get? items p = none) (hu : p.head? ≠ some '_') (hr : p ∉ r) :
    getItem attr root (dotted (qs ++ p :: rs)) = .ok (.node .none) := by
  obtain ⟨hw, hat⟩ := walk_through (ks := Key.name p :: rs.map .name) qs (addr := []) rfl ho hn (by simp [Node.kind])
  rw [getItem_dotted h2 hp, List.map_append, List.map_cons, hw]
  have hs : step attr root (.at ([] ++ qs.map .name)) (.name p) = some .nothing := by
    simp only [step, hat, stepName, Node.kind, ha]
    simp [AList.contains, hi, hu, hr]
  simp only [walk, hs, isNone, if_true, read]

/-- C141 is violated: a missing property of an object that allows additional properties reads as None. -/
theorem C141_missing_violated : ¬ ∀ (attr : Kind → Str → Bool) (root : Node) (ps : List Str), 2 ≤ ps.length →
    (∀ p ∈ ps, Plain p) → Open attr root ps → descend root ps = none →
    getItem attr root (dotted ps) = .error .keyError := by
  intro h
  have := h methods sample ["a".toList, "y".toList] (by decide)
    (by intro p hp; simp at hp; rcases hp with rfl | rfl <;> exact ⟨by decide, by decide, by decide⟩) (by
      refine ⟨rfl, fun m hm => ?_⟩
      simp only [sample, item, AList.get?, if_true, Option.some.injEq] at hm
      subst hm
      exact ⟨fun _ => by simp [Node.kind], rfl, fun m _ => ⟨fun h => absurd rfl h, trivial⟩⟩) rfl
  have h' : getItem methods sample (dotted ["a".toList, "y".toList]) = .ok (.node .none) := rfl
  rw [h'] at this
  simp at this

/-- The errors of a lookup. -/
theorem C141_errors_partial (attr : Kind → Str → Bool) (root : Node) (key : Str) (e : Exc)
    (h : getItem attr root key = .error e) :
    e = .keyError ∨ e = .valueError ∧ '.' ∈ key ∧ splitCname key = none := by
  unfold getItem at h
  split at h
  · simp at h
  · split at h
    · rename_i hd
      split at h
      · rename_i hs
        simp only [Except.error.injEq] at h
        exact Or.inr ⟨h.symm, hd, hs⟩
      · split at h
        · simp only [Except.error.injEq] at h
          exact Or.inl h.symm
        · simp at h
    · split at h
      · simp only [Except.error.injEq] at h
        exact Or.inl h.symm
      · simp at h

/-- C141 is violated by brackets around anything but a number: ValueError. -/
theorem C141_bracket_violated : ¬ ∀ (attr : Kind → Str → Bool) (root : Node) (key : Str) (e : Exc),
    getItem attr root key = .error e → e = .keyError := by
  intro h
  have := h methods sample "d.l[x]".toList .valueError rfl
  simp at this

example : getItem methods sample "c.y".toList = .error .keyError := rfl
example : getItem methods sample "c.y.z".toList = .error .keyError := rfl
example : getItem methods sample "a.y.z".toList = .ok (.node .none) := rfl
example : getItem methods sample "d.l[x]".toList = .error .valueError := rfl

/-! C142 -/

/-- C142 is violated: no dotted name with an index gives an item. -/
theorem C142_index_violated (attr : Kind → Str → Bool) (root : Node) (key : Str) (parts : List Key)
    (hd : '.' ∈ key) (hs : splitCname key = some parts) (hi : ∃ i, Key.idx i ∈ parts) :
    getItem attr root key = .error .keyError ∨ getItem attr root key = .ok (.node .none) := by
  unfold getItem
  rw [if_neg (fun h => by simp [h] at hd), if_pos hd, hs]
  dsimp only
  cases hw : walk attr root (.at []) parts with
  | none => exact Or.inl rfl
  | some c =>
    right
    rw [walk_index parts hw hi]
    rfl

example : splitCname "d.l[0]".toList = some [.name "d".toList, .name "l".toList, .idx 0] := rfl
example : getItem methods sample "d.l[0]".toList = .error .keyError := rfl
example : getItem methods sample "n.l[0]".toList = .ok (.node .none) := rfl
example : nodeAt sample [.name "d".toList, .name "l".toList, .idx 0] = some (.atom 4) := rfl

/-! C143 -/

/-- C143 is violated at the start of a name: after a leading dot the rest is not looked at. -/
theorem C143_leading_violated (attr : Kind → Str → Bool) (root : Node) (ps : List Str) (hne : ps ≠ [])
    (hp : ∀ p ∈ ps, '.' ∉ p ∧ '[' ∉ p) : getItem attr root ('.' :: dotted ps) = .ok (.node root) := by
  have hd : '.' :: dotted ps = dotted ([] :: ps) := by
    cases ps with
    | nil => exact absurd rfl hne
    | cons p ps => simp [dotted, joinWith]
  unfold getItem
  rw [if_neg (by simp), if_pos (by simp), hd, splitCname_names ([] :: ps) (by
    intro p h
    rcases List.mem_cons.1 h with rfl | h
    · simp
    · exact hp p h) (by simp)]
  rfl

/-- C143: an empty part in a closed object stands for the object above it. -/
theorem C143_parent_partial (attr : Kind → Str → Bool) (root v : Node) (up : List Str) (p q : Str)
    (a : Bool) (r r' : List Str) (items items' : List (Str × Node)) (hp : ∀ x ∈ up ++ [p, q], Plain x)
    (ho : Open attr root (up ++ [p])) (hq : Open attr root (up ++ [q])) (hn : descend root up = some (.obj a r items))
    (hm : AList.get? items p = some (.obj false r' items')) (h0 : AList.get? items' [] = none)
    (ha : attr .obj [] = false) (hv : descend root (up ++ [q]) = some v) :
    getItem attr root (dotted (up ++ [p, [], q])) = .ok (.node v) := by
  have hdesc : ∀ x, descend root (up ++ [x]) = (item (.obj a r items) x) := by
    intro x
    have : ∀ (l : List Str) (n : Node), descend n (l ++ [x]) = (descend n l).bind (item · x) := by
      intro l
      induction l with
      | nil => intro n; simp [descend]
      | cons b l ih =>
        intro n
        simp only [List.cons_append, descend]
        cases item n b with
        | none => rfl
        | some m => exact ih m
    rw [this, hn]
    rfl
  have hmm : descend root (up ++ [p]) = some (.obj false r' items') := by rw [hdesc p]; exact hm
  obtain ⟨hw, hat⟩ := walk_through (ks := [Key.name [], Key.name q]) (up ++ [p]) (addr := []) rfl ho hmm
    (by simp [Node.kind])
  have hopen : ∀ (l : List Str) (n : Node), Open attr n (l ++ [q]) → Open attr n l := by
    intro l
    induction l with
    | nil => intro n _; trivial
    | cons b l ih =>
      rintro n ⟨h1, h2⟩
      refine ⟨h1, fun m hm => ?_⟩
      obtain ⟨h3, h4⟩ := h2 m hm
      exact ⟨fun _ => h3 (by simp), ih m h4⟩
  obtain ⟨hw2, hat2⟩ := walk_through (ks := [Key.name q]) up (addr := []) rfl (hopen _ _ hq) hn (by simp [Node.kind])
  rw [getItem_names (by simp) (by
      intro x hx
      rcases List.mem_append.1 hx with hx | hx
      · exact (hp x (by simp [hx])).2
      · simp only [List.mem_cons, List.not_mem_nil, or_false] at hx
        rcases hx with rfl | rfl | rfl
        · exact (hp x (by simp)).2
        · simp
        · exact (hp x (by simp)).2) (by
      intro h
      cases up with
      | nil =>
        simp only [List.nil_append, List.head?_cons, Option.some.injEq] at h
        exact (hp p (by simp)).1 h
      | cons b l =>
        simp only [List.cons_append, List.head?_cons, Option.some.injEq] at h
        exact (hp b (by simp)).1 h)]
  have e1 : (up ++ [p, [], q]).map Key.name = (up ++ [p]).map Key.name ++ [Key.name [], Key.name q] := by simp
  rw [e1, hw]
  have hpar : parent root ([] ++ (up ++ [p]).map Key.name) = .at ([] ++ up.map .name) := by
    unfold parent
    simp only [List.nil_append, List.map_append, List.map_cons, List.map_nil, List.reverse_append, List.reverse_cons,
      List.reverse_nil, List.singleton_append]
    unfold parentRev
    simp only [List.reverse_reverse]
    simp only [List.nil_append] at hat2
    rw [hat2]
    rfl
  have hs : step attr root (.at ([] ++ (up ++ [p]).map Key.name)) (.name []) = some (.at ([] ++ up.map .name)) := by
    simp only [step, hat, stepName, Node.kind, ha]
    simp only [AList.contains, h0, hpar]
    simp
  have hnn : isNone root (.at ([] ++ up.map Key.name)) = false := by simp only [isNone, hat2]
  obtain ⟨c, hc, hr, _⟩ := walk_descend (up ++ [q]) (addr := []) rfl hq hv
  simp only [List.map_append, List.map_cons, List.map_nil] at hc
  rw [hw2] at hc
  have hfinal : walk attr root (.at ([] ++ (up ++ [p]).map Key.name)) [Key.name [], Key.name q] = some c := by
    rw [walk, hs]
    simp only [hnn, Bool.false_eq_true, if_false]
    exact hc
  rw [hfinal]
  exact congrArg Except.ok hr

/-- C143: the object above is the closest one: a dictionary or an array on the way is passed over. -/
theorem C143_closest_partial (attr : Kind → Str → Bool) (a : Bool) (r r' : List Str) (items items' : List (Str × Node))
    (d : List (Key × Node)) (p q x : Str) (v : Node) (hx : ∀ y ∈ [p, q, x], Plain y) (hp : attr .obj p = false)
    (hq : attr .dict q = false) (h0 : attr .obj [] = false) (hxa : attr .obj x = false)
    (hd : AList.get? items p = some (.dict d)) (ho : AList.get? d (.name q) = some (.obj false r' items'))
    (he : AList.get? items' [] = none) (hv : AList.get? items x = some v) :
    getItem attr (.obj a r items) (dotted [p, q, [], x]) = .ok (.node v) := by
  have c1 : AList.contains items p = true := by simp [AList.contains, hd]
  have c2 : AList.contains d (.name q) = true := by simp [AList.contains, ho]
  have c3 : AList.contains items' [] = false := by simp [AList.contains, he]
  have c4 : AList.contains items x = true := by simp [AList.contains, hv]
  rw [getItem_names (by simp) (by
      intro y hy
      simp only [List.mem_cons, List.not_mem_nil, or_false] at hy
      rcases hy with rfl | rfl | rfl | rfl
      · exact (hx y (by simp)).2
      · exact (hx y (by simp)).2
      · simp
      · exact (hx y (by simp)).2) (by
      intro h
      simp only [List.head?_cons, Option.some.injEq] at h
      exact (hx p (by simp)).1 h)]
  have n1 : nodeAt (.obj a r items) [.name p] = some (.dict d) := by simp [nodeAt, child, hd]
  have n2 : nodeAt (.obj a r items) [.name p, .name q] = some (.obj false r' items') := by simp [nodeAt, child, hd, ho]
  have n3 : nodeAt (.obj a r items) [.name x] = some v := by simp [nodeAt, child, hv]
  have hpar : parent (.obj a r items) [.name p, .name q] = .at [] := by
    simp [parent, parentRev, n1, isObj, nodeAt]
  have s1 : step attr (.obj a r items) (.at []) (.name p) = some (.at [.name p]) := by
    simp [step, nodeAt, stepName, Node.kind, hp, c1]
  have s2 : step attr (.obj a r items) (.at [.name p]) (.name q) = some (.at [.name p, .name q]) := by
    simp [step, n1, stepName, Node.kind, hq, c2]
  have s3 : step attr (.obj a r items) (.at [.name p, .name q]) (.name []) = some (.at []) := by
    simp only [step, n2, stepName, Node.kind, h0, c3, hpar]; simp
  have s4 : step attr (.obj a r items) (.at []) (.name x) = some (.at [.name x]) := by
    simp [step, nodeAt, stepName, Node.kind, hxa, c4]
  have n0 : nodeAt (.obj a r items) [] = some (.obj a r items) := rfl
  simp only [List.map_cons, List.map_nil, walk, s1, s2, s3, s4, isNone, n0, n1, n2, n3]
  cases v <;> simp [read, n3]

example : getItem (fun _ _ => false) (.obj false [] [("d".toList, .dict [(.name "o".toList, .obj false [] [])]),
    ("n".toList, .atom 5)]) "d.o..n".toList = .ok (.node (.atom 5)) := rfl

/-- C143 is violated by objects that allow additional properties, for which an empty part gives None. -/
theorem C143_empty_violated (attr : Kind → Str → Bool) (root : Node) (ps rs : List Str) (r : List Str)
    (items : List (Str × Node)) (hne : ps ≠ []) (hp : ∀ p ∈ ps, Plain p) (hrs : ∀ p ∈ rs, '.' ∉ p ∧ '[' ∉ p)
    (ho : Open attr root ps) (hn : descend root ps = some (.obj true r items)) (ha : attr .obj [] = false)
    (h0 : AList.get? items [] = none) (hr : [] ∉ r) :
    getItem attr root (dotted (ps ++ [] :: rs)) = .ok (.node .none) := by
  obtain ⟨hw, hat⟩ := walk_through (ks := Key.name [] :: rs.map .name) ps (addr := []) rfl ho hn (by simp [Node.kind])
  have hs : step attr root (.at ([] ++ ps.map .name)) (.name []) = some .nothing := by
    simp only [step, hat, stepName, Node.kind, ha]
    simp [AList.contains, h0, hr]
  cases ps with
  | nil => exact absurd rfl hne
  | cons b l =>
    rw [getItem_names (by simp; omega) (by
        intro x hx
        rcases List.mem_append.1 hx with hx | hx
        · exact (hp x hx).2
        · rcases List.mem_cons.1 hx with rfl | hx
          · simp
          · exact hrs x hx) (by
        intro h
        simp only [List.cons_append, List.head?_cons, Option.some.injEq] at h
        exact (hp b (by simp)).1 h), List.map_append, List.map_cons (l := rs), hw]
    simp only [walk, hs, isNone, if_true, read]

example : getItem methods sample ".a".toList = .ok (.node sample) := rfl
example : getItem methods sample "c..n".toList = .ok (.node .none) := rfl
example : getItem methods sample "c..a.x".toList = .ok (.node (.atom 1)) := rfl
example : getItem methods sample "a..c".toList = .ok (.node .none) := rfl

/-! C144 -/

/-- C144: an assignment by dotted name is read back by that name and leaves everything that is neither below nor above
it, when the collection it reaches accepts it. -/
theorem C144_assign_partial (attr : Kind → Str → Bool) (root m v : Node) (ps : List Str) (p : Str) (hne : ps ≠ [])
    (hp : ∀ q ∈ ps ++ [p], Plain q) (ho : Open attr root (ps ++ [p])) (hm : descend root ps = some m)
    (hacc : Accepts m p) :
    ∃ root', setItem attr root (dotted (ps ++ [p])) v = .ok root' ∧
      getItem attr root' (dotted (ps ++ [p])) = .ok (.node v) ∧
      ∀ q : List Str, ¬ q <+: (ps ++ [p]) → ¬ (ps ++ [p]) <+: q → descend root' q = descend root q := by
  have h2 : 2 ≤ (ps ++ [p]).length := by
    cases ps with
    | nil => exact absurd rfl hne
    | cons a l => simp
  obtain ⟨root', hset, _, hd, hopen, hf⟩ := setAt_path (attr := attr) (p := p) (v := v) ps hm hacc
  refine ⟨root', ?_, C140_names_partial attr root' v (ps ++ [p]) h2 hp (hopen ho) hd, hf⟩
  have hdot : '.' ∈ dotted (ps ++ [p]) := by
    match ps, hne with
    | a :: [], _ => exact dot_mem_dotted ..
    | a :: b :: l, _ => exact dot_mem_dotted ..
  have hopen' : ∀ (l : List Str) (n : Node), Open attr n (l ++ [p]) → Open attr n l := by
    intro l
    induction l with
    | nil => intro n _; trivial
    | cons b l ih =>
      rintro n ⟨h1, h2⟩
      refine ⟨h1, fun m hm => ?_⟩
      obtain ⟨h3, h4⟩ := h2 m hm
      exact ⟨fun _ => h3 (by simp), ih m h4⟩
  have hk : m.kind ≠ .none := by
    cases m <;> simp [Node.kind]
    simp [Accepts] at hacc
  obtain ⟨hw, _⟩ := walk_through (ks := []) ps (addr := []) rfl (hopen' _ _ ho) hm hk
  simp only [List.append_nil, List.nil_append, walk] at hw
  unfold setItem
  rw [if_pos hdot, splitCname_dotted _ hp (by simp)]
  simp only [List.map_append, List.map_cons, List.map_nil, List.dropLast_concat, List.getLast?_concat]
  rw [hw]
  simp only [hset]

/-- An assignment below a property without value changes nothing and raises nothing. -/
theorem C144_none (attr : Kind → Str → Bool) (root v : Node) (ps qs : List Str) (hne : ps ≠ []) (hq : qs ≠ [])
    (hp : ∀ q ∈ ps ++ qs, Plain q) (ho : Open attr root ps) (hm : descend root ps = some .none) :
    setItem attr root (dotted (ps ++ qs)) v = .ok root := by
  have hdot : '.' ∈ dotted (ps ++ qs) := by
    match ps, qs, hne, hq with
    | a :: [], b :: l, _, _ => exact dot_mem_dotted ..
    | a :: b :: l, _, _, _ => exact dot_mem_dotted ..
  have hw : ∀ (l : List Str) (n : Node) (addr ks : List Key), l ≠ [] → nodeAt root addr = some n → Open attr n l →
      descend n l = some .none → walk attr root (.at addr) (l.map .name ++ ks) = some .nothing := by
    intro l
    induction l with
    | nil => intro _ _ _ h; exact absurd rfl h
    | cons a l ih =>
      rintro n addr ks - hn ⟨ha, ho⟩ hd
      simp only [descend] at hd
      cases hi : item n a with
      | none => simp [hi] at hd
      | some b =>
        simp only [hi, Option.bind_some] at hd
        obtain ⟨h1, ho⟩ := ho b hi
        have hat : nodeAt root (addr ++ [.name a]) = some b := by
          rw [nodeAt_append, hn, Option.bind_some, child_name, hi]
        simp only [List.map_cons, List.cons_append, walk, step, hn, stepName_item ha hi]
        by_cases h0 : b = .none
        · rw [if_pos ((isNone_at hat).2 h0)]
        · rw [if_neg (fun h => h0 ((isNone_at hat).1 h))]
          refine ih b _ ks ?_ hat ho hd
          rintro rfl
          simp only [descend, Option.some.injEq] at hd
          exact h0 hd
  unfold setItem
  rw [if_pos hdot, splitCname_dotted _ hp (by simp [hne])]
  have e : ((ps ++ qs).map Key.name).dropLast = ps.map .name ++ (qs.map Key.name).dropLast := by
    rw [List.map_append, List.dropLast_append_of_ne_nil]
    simpa using hq
  simp only [e, hw ps root [] _ hne rfl ho hm]

/-- C144 is violated: the assignment may be lost without an error. -/
theorem C144_lost_violated : ∃ (root : Node) (key : Str) (v : Node), v.kind ≠ .none ∧
    setItem methods root key v = .ok root ∧ getItem methods root key = .ok (.node .none) :=
  ⟨sample, "n.x".toList, .atom 1, by simp [Node.kind], rfl, rfl⟩

/-- C144 is violated: an item of an array may be assigned by a dotted name that does not read it back. -/
theorem C144_index_violated : ∃ (root root' : Node) (key : Str) (v : Node) (addr : List Key),
    setItem methods root key v = .ok root' ∧ nodeAt root' addr = some v ∧
    getItem methods root' key = .error .keyError :=
  ⟨sample, _, "d.l[1]".toList, .atom 9, [.name "d".toList, .name "l".toList, .idx 1], rfl, rfl, rfl⟩

/-- C144: a number in brackets assigns the item of the array at this place, counted from the end when it is negative;
outside of the array it is a KeyError. -/
theorem C144_item_partial (attr : Kind → Str → Bool) (a a' : Bool) (r r' : List Str) (items items' : List (Str × Node))
    (key q p : Str) (i : Int) (l : List Node) (v : Node) (hd : '.' ∈ key) (hs : splitCname key = some [.name q, .name p, .idx i])
    (hq : attr .obj q = false) (hp : attr .obj p = false) (ho : AList.get? items q = some (.obj a' r' items'))
    (hl : AList.get? items' p = some (.arr l)) :
    (∀ k : Nat, (k : Int) = (if i < 0 then l.length + i else i) → k < l.length →
      setItem attr (.obj a r items) key v =
        .ok (.obj a r (AList.set items q (.obj a' r' (AList.set items' p (.arr (l.set k v))))))) ∧
    ((i < -(l.length : Int) ∨ (l.length : Int) ≤ i) → setItem attr (.obj a r items) key v = .error .keyError) := by
  have hc : AList.contains items q = true := by simp [AList.contains, ho]
  have hc' : AList.contains items' p = true := by simp [AList.contains, hl]
  have hw : walk attr (.obj a r items) (.at []) [Key.name q, .name p, .idx i].dropLast = some (.at [.name q, .name p]) := by
    simp [walk, step, nodeAt, stepName, Node.kind, hp, hq, hc, hc', isNone, child, hl, ho]
  have hset : setItem attr (.obj a r items) key v = match (pySet l i v).map Node.arr with
      | none => .error .keyError
      | some m => .ok (.obj a r (AList.set items q (.obj a' r' (AList.set items' p m)))) := by
    unfold setItem
    rw [if_pos hd, hs]
    dsimp only
    rw [hw]
    simp only [List.getLast?_cons_cons, List.getLast?_singleton, setAt, child, hl, ho]
    simp only [setChild]
    cases pySet l i v <;> simp [hc, hc']
  rw [hset]
  constructor
  · intro k hk hlt
    have : pySet l i v = some (l.set k v) := by
      unfold pySet
      by_cases hi : i < 0
      · rw [if_pos hi] at hk
        rw [if_neg (by omega), if_pos (by omega)]
        congr 2; omega
      · rw [if_neg hi] at hk
        rw [if_pos (by omega), if_pos (by omega)]
        congr 2; omega
    rw [this]; rfl
  · intro h
    have : pySet l i v = none := by
      unfold pySet
      rcases h with h | h
      · rw [if_neg (by omega), if_neg (by omega)]
      · rw [if_pos (by omega), if_neg (by omega)]
    rw [this]; rfl

example : setItem (fun _ _ => false) (.obj false [] [("d".toList, .obj false [] [("l".toList, .arr [.atom 1, .atom 2])])])
      "d.l[-1]".toList (.atom 9) =
    .ok (.obj false [] [("d".toList, .obj false [] [("l".toList, .arr [.atom 1, .atom 9])])]) := rfl
example : splitCname "d.l[-1]".toList = some [.name "d".toList, .name "l".toList, .idx (-1)] := rfl

example : ∃ root', setItem methods sample "c.x".toList (.atom 8) = .ok root' ∧
    getItem methods root' "c.x".toList = .ok (.node (.atom 8)) ∧
    getItem methods root' "a.x".toList = .ok (.node (.atom 1)) := ⟨_, rfl, rfl, rfl⟩
example : setItem methods sample "c.y".toList (.atom 8) = .error .keyError := rfl
example : setItem methods sample ".c".toList (.atom 8) = .error .keyError := rfl
example : Accepts (.obj false [] [("x".toList, .atom 3)]) "x".toList := Or.inr rfl

/-! C145 -/

/-- C145 is violated: the name asked for is not used. Objects that are not instances give IndexError, the others what
their own name gives when looked up in themselves, or an error. -/
theorem C145_resolve_violated (attr : Kind → Str → Bool) (root : Node) :
    (∀ name cname, resolveCname attr false name root cname = .error .indexError) ∧
    (∀ cname, resolveCname attr true none root cname = .error .attributeError) ∧
    (∀ n cname, n ≠ [] → ':' ∉ n → resolveCname attr true (some n) root cname = getItem attr root n) ∧
    (∀ n cname, n = [] ∨ ':' ∈ n → resolveCname attr true (some n) root cname = .error .exception) := by
  refine ⟨fun _ _ => rfl, fun _ => rfl, fun n cname hn hc => ?_, fun n cname h => ?_⟩
  · simp [resolveCname, resolveCnamePath, splitOn_of_notMem hc, hn]
  · have : ¬ (n ≠ [] ∧ [(splitOn ':' n).getLast?.getD []] = [n]) := by
      rintro ⟨hn, he⟩
      rcases h with h | h
      · exact hn h
      · have hm : ((splitOn ':' n).getLast?.getD []) ∈ splitOn ':' n := by
          cases hl : (splitOn ':' n).getLast? with
          | none => exact absurd (List.getLast?_eq_none_iff.1 hl) (splitOn_ne_nil _ _)
          | some w => exact List.mem_of_getLast? hl
        simp only [List.cons.injEq, and_true] at he
        rw [he] at hm
        exact splitOn_notMem hm h
    simp only [resolveCname, resolveCnamePath, this, Bool.not_true, Bool.false_eq_true, if_false]

/-- An instance named "top" with an instance named "sub". -/
def named : Node := .obj true [] [("name".toList, .atom 0), ("part".toList, .obj true [] [("name".toList, .atom 1)])]

example : resolveCname methods true (some "top".toList) named ["top".toList, "sub".toList] = .error .keyError := rfl
example : resolveCname methods true (some "top".toList) named ["part".toList] = .error .keyError := rfl
example : resolveCname methods false none named ["part".toList] = .error .indexError := rfl

/-! C146 -/

theorem canonicalName_named (n : Str) (ps : List Str) :
    canonicalName (some n) (ps.map some) = some (dotted (ps.reverse ++ [n])) := by
  induction ps generalizing n with
  | nil => rfl
  | cons p ps ih =>
    simp only [List.map_cons, canonicalName, ih, shown, List.reverse_cons]
    have : ∀ (l : List Str), l ≠ [] → dotted (l ++ [n]) = dotted l ++ ['.'] ++ n := by
      intro l
      induction l with
      | nil => intro h; exact absurd rfl h
      | cons a l ih =>
        intro _
        cases l with
        | nil => simp [dotted, joinWith]
        | cons b l =>
          have := ih (by simp)
          simp only [dotted, List.cons_append, joinWith] at this ⊢
          rw [this]
          simp
    rw [this _ (by simp)]

/-- C146: the canonical name of an instance is made of the names from the root; for names without dots it determines
them. -/
theorem C146_names_partial (n m : Str) (ps qs : List Str) :
    canonicalName (some n) (ps.map some) = some (dotted (ps.reverse ++ [n])) ∧
    ((∀ x ∈ n :: ps, '.' ∉ x) → (∀ x ∈ m :: qs, '.' ∉ x) →
      canonicalName (some n) (ps.map some) = canonicalName (some m) (qs.map some) → n = m ∧ ps = qs) := by
  refine ⟨canonicalName_named n ps, fun h1 h2 he => ?_⟩
  rw [canonicalName_named, canonicalName_named, Option.some.injEq] at he
  have h := congrArg (splitOn '.') he
  unfold dotted at h
  rw [splitOn_joinWith _ (by simp) (by intro w hw; exact h1 w (by simpa [or_comm] using hw)),
    splitOn_joinWith _ (by simp) (by intro w hw; exact h2 w (by simpa [or_comm] using hw))] at h
  have h' := List.append_inj' h rfl
  exact ⟨by simpa using h'.2, by simpa using h'.1⟩

/-- C146 is violated by instances without a name: they take the name "None". -/
theorem C146_unnamed_violated (p : Option Str) (ps : List (Option Str)) :
    canonicalName none (p :: ps) = canonicalName (some "None".toList) (p :: ps) ∧
    canonicalName p (none :: ps) = canonicalName p (some "None".toList :: ps) := by
  constructor
  · rfl
  · cases ps <;> rfl

example : canonicalName (some "c".toList) [some "b".toList, some "a".toList] = some "a.b.c".toList := rfl
example : canonicalName none [some "b".toList, none] = some "None.b.None".toList := rfl

end Verif.Paths
