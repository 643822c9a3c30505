import Verif.Lemmas.Symbols
/-
C174-C180: imported symbols.
-/
namespace Verif.Symbols
open Spec
variable {O : Type}

/-- An interpreter for the examples. Objects: 0 module `pkg`, 1 module `pkg.sub`, 2 a class `pkg.sub.C`, 3 its method as a
function, 4 a counter in `pkg` that is 0, 5 a list in `pkg`, 6 a module `help`, 7 the builtin `help`, 8 an instance of
the class, 9 its bound method, 10 a function `pkg.f`, 11 a class method. -/
def demo : World Nat where
  importMod s := if s = "pkg".toList then some 0 else if s = "pkg.sub".toList then some 1
    else if s = "help".toList then some 6 else none
  attr v a := match v with
    | .obj 0 => if a = "sub".toList then some (.obj 1) else if a = "count".toList then some (.obj 4)
      else if a = "items".toList then some (.obj 5) else if a = "name".toList then some (.text "pkg.f".toList)
      else if a = "f".toList then some (.obj 10) else none
    | .obj 1 => if a = "C".toList then some (.obj 2) else none
    | .obj 2 => if a = "run".toList then some (.obj 3) else if a = "make".toList then some (.obj 11) else none
    | _ => none
  builtins s := if s = "help".toList then some (.obj 7) else none
  truthy o := o != 4
  hashable o := o != 5
  callable o := o == 2 || o == 3 || o == 7 || o == 9 || o == 10 || o == 11
  kind o := match o with
    | 0 => .module | 1 => .module | 6 => .module
    | 2 => .cls
    | 3 => .function | 10 => .function
    | 9 => .method | 11 => .method
    | _ => .other
  nameOf o := match o with
    | 0 => "pkg".toList | 1 => "pkg.sub".toList | 6 => "help".toList | _ => []
  moduleOf o := match o with
    | 0 => none | 1 => none | 6 => none | 4 => none | 5 => none
    | 10 => some "pkg".toList
    | _ => some "pkg.sub".toList
  qualname o := match o with
    | 2 => .ok "C".toList
    | 3 => .ok "C.run".toList | 9 => .ok "C.run".toList
    | 11 => .ok "C.make".toList
    | 10 => .ok "f".toList
    | _ => .error .attributeError

/-- The segments of a name, for the examples. -/
def segs (l : List String) : List Str := l.map String.toList

/-! ### C174: a dotted name stands for the symbol it names -/

/-- The longest importable beginning of the name is imported, the rest are its attributes, all of them true; a name that
does not lead anywhere is kept as a text. -/
theorem C174_best_partial (w : World O) (ev : Str → Option Str) (l : List Str) (hl : Names l)
    (hp : Plain w ev (dotted l)) (v : V O) :
    convert w ev .importable (.text (dotted l)) = .ok v
      ↔ Best w l v ∨ ((∀ u, ¬ Best w l u) ∧ v = .text (dotted l)) := by
  rw [← importText_best w ev l hl hp.2 v]
  simp only [convert, builtin, hp.1, Option.getD_none]
  have : ∀ u : V O, checked w .importable u = .ok u := by intro u; cases u <;> rfl
  rw [this]
  constructor
  · intro h; cases h; rfl
  · rintro rfl; rfl

example : Names (segs ["pkg", "sub", "C"]) ∧ Plain demo some (dotted (segs ["pkg", "sub", "C"]))
    ∧ dotted (segs ["pkg", "sub", "C"]) = "pkg.sub.C".toList
    ∧ convert demo some .importable (.text "pkg.sub.C".toList) = .ok (.obj 2) := by
  refine ⟨⟨by decide +kernel, ?_⟩, by constructor <;> decide +kernel, by decide +kernel, by decide +kernel⟩
  intro a ha
  simp only [segs, List.map_cons, List.map_nil, List.mem_cons, List.not_mem_nil, or_false] at ha
  rcases ha with rfl | rfl | rfl <;> decide +kernel

example : Best demo (segs ["pkg", "sub", "C"]) (.obj 2) := by
  refine (C174_best_partial demo some (segs ["pkg", "sub", "C"]) ?_ ?_ (.obj 2)).mp (by decide +kernel) |>.resolve_right ?_
  · refine ⟨by decide +kernel, fun a ha => ?_⟩
    simp only [segs, List.map_cons, List.map_nil, List.mem_cons, List.not_mem_nil, or_false] at ha
    rcases ha with rfl | rfl | rfl <;> decide +kernel
  · constructor <;> decide +kernel
  · exact fun h => absurd h.2 (by decide +kernel)

/-- For the other types: what the name denotes is returned if it is one, refused otherwise. -/
theorem C174_typed_partial (w : World O) (ev : Str → Option Str) (t : Ty) (ht : t ≠ .staticmethod ∧ t ≠ .classmethod)
    (l : List Str) (hl : Names l) (hp : Plain w ev (dotted l)) (o : O) (hb : Best w l (.obj o)) :
    (Of w t o → convert w ev t (.text (dotted l)) = .ok (.obj o))
      ∧ (¬ Of w t o → convert w ev t (.text (dotted l)) = .error .conversionError) := by
  rw [convert_best w ev t l hl hp o hb, ← checkSymbol_of w t ht o]
  constructor
  · intro h; rw [if_pos h]
  · intro h; rw [if_neg h]

example : convert demo some .cls (.text "pkg.sub.C".toList) = .ok (.obj 2)
    ∧ convert demo some .module (.text "pkg.sub.C".toList) = .error .conversionError := by decide +kernel

/-- An attribute that is false is not found: its name is kept as a text. -/
theorem C174_false_violated : ¬ ∀ (w : World Nat) (ev : Str → Option Str) (mod path : List Str) (o : Nat),
    mod ≠ [] → Names (mod ++ path) → Plain w ev (dotted (mod ++ path)) → Denotes w (fun _ => True) mod path (.obj o) →
    (∀ mod' path', mod ++ path = mod' ++ path' → mod.length < mod'.length → w.importMod (dotted mod') = none) →
    convert w ev .importable (.text (dotted (mod ++ path))) = .ok (.obj o) := by
  intro h
  have := h demo some (segs ["pkg"]) (segs ["count"]) 4 (by decide +kernel) ⟨by decide +kernel, fun a ha => by
      simp only [segs, List.map_cons, List.map_nil, List.mem_cons, List.mem_append, List.not_mem_nil, or_false] at ha
      rcases ha with rfl | rfl <;> decide +kernel⟩ (by constructor <;> decide +kernel)
    ⟨0, by decide +kernel, .step _ _ (.obj 4) _ _ (by decide +kernel) trivial (.here _)⟩ (by
      intro mod' path' he hlt
      have hlen := congrArg List.length he
      simp only [segs, List.map_cons, List.map_nil, List.length_append, List.length_cons, List.length_nil] at hlt hlen
      have : path' = [] := List.length_eq_zero_iff.mp (by omega)
      subst this
      rw [List.append_nil] at he
      subst he; decide +kernel)
  exact absurd this (by decide +kernel)

/-- A name that is also a builtin stands for the builtin. -/
theorem C174_builtin (w : World O) (ev : Str → Option Str) (t : Ty) (ht : t ≠ .staticmethod ∧ t ≠ .classmethod)
    (s : Str) (o : O) (h : w.builtins s = some (.obj o)) :
    convert w ev t (.text s) = .ok (.obj o) ↔ Of w t o := by
  rw [← checkSymbol_of w t ht o]
  simp only [convert, builtin, h, Option.getD_some, checked]
  split <;> simp_all

example : convert demo some .callable (.text "help".toList) = .ok (.obj 7) := by decide +kernel

/-- A module with the name of a builtin cannot be named. -/
theorem C174_module_violated : ¬ ∀ (w : World Nat) (ev : Str → Option Str) (s : Str) (o : Nat),
    ev s = some s → '.' ∉ s → w.importMod s = some o → w.kind o = .module →
    convert w ev .module (.text s) = .ok (.obj o) := fun h =>
  absurd (h demo some "help".toList 6 (by decide +kernel) (by decide +kernel) (by decide +kernel) (by decide +kernel))
    (by decide +kernel)

/-! ### C175: what names nothing is refused by ConversionError -/

/-- For the types that exclude texts. -/
theorem C175_refused_partial (w : World O) (ev : Str → Option Str) (t : Ty) (ht : t ≠ .importable ∧ t ≠ .inst)
    (l : List Str) (hl : Names l) (hp : Plain w ev (dotted l)) (hn : ∀ u, ¬ Best w l u) :
    convert w ev t (.text (dotted l)) = .error .conversionError := by
  have := (importText_best w ev l hl hp.2 _).mpr (.inr ⟨hn, rfl⟩)
  simp only [convert, builtin, hp.1, Option.getD_none, this, checked]
  rw [if_neg]
  cases t <;> simp_all [checkSymbol, V.is]

example : convert demo some .function (.text "pkg.nothing".toList) = .error .conversionError := by decide +kernel

/-- The types of any symbol and of instances keep the text. -/
theorem C175_text_violated (w : World O) (ev : Str → Option Str) (t : Ty) (ht : t = .importable ∨ t = .inst)
    (l : List Str) (hl : Names l) (hp : Plain w ev (dotted l)) (hn : ∀ u, ¬ Best w l u) :
    convert w ev t (.text (dotted l)) = .ok (.text (dotted l)) := by
  have := (importText_best w ev l hl hp.2 _).mpr (.inr ⟨hn, rfl⟩)
  simp only [convert, builtin, hp.1, Option.getD_none, this, checked]
  rcases ht with rfl | rfl <;> rfl

example : convert demo some .importable (.text "pkg.nothing".toList) = .ok (.text "pkg.nothing".toList)
    ∧ convert demo some .inst (.text "pkg.nothing".toList) = .ok (.text "pkg.nothing".toList) := by decide +kernel

/-! ### C176: a symbol has the declared kind -/

/-- Modules, functions, classes, methods and callables: what is accepted is one. -/
theorem C176_kind_partial (w : World O) (ev : Str → Option Str) (t : Ty)
    (ht : t ≠ .importable ∧ t ≠ .inst ∧ t ≠ .staticmethod ∧ t ≠ .classmethod) (v u : V O)
    (h : convert w ev t v = .ok u) : u = .none ∨ ∃ o, u = .obj o ∧ Of w t o := by
  have key : ∀ x : V O, checked w t x = .ok u → u = .none ∨ ∃ o, u = .obj o ∧ Of w t o := by
    intro x hx
    cases x with
    | none => cases hx; exact .inl rfl
    | text s =>
      simp only [checked] at hx
      split at hx
      · next hc => cases t <;> simp_all [checkSymbol, V.is]
      · exact absurd hx (by simp)
    | obj o =>
      simp only [checked] at hx
      split at hx
      · next hc => cases hx; refine .inr ⟨o, rfl, ?_⟩; cases t <;> simp_all [checkSymbol, V.is, Of]
      · exact absurd hx (by simp)
  rw [convert] at h
  split at h
  · exact absurd h (by simp)
  · exact key _ h
  · exact key _ h

example : convert demo some .function (.text "pkg.f".toList) = .ok (.obj 10) ∧ Of demo .function 10
    ∧ convert demo some .method (.text "pkg.sub.C.make".toList) = .ok (.obj 11) ∧ Of demo .method 11 := by
  refine ⟨?_, rfl, ?_, rfl⟩ <;> decide +kernel

/-- Nothing is a class method. -/
theorem C176_classmethod_violated (w : World O) (ev : Str → Option Str) (v u : V O)
    (h : convert w ev .classmethod v = .ok u) : u = .none := by
  have key : ∀ x : V O, checked w .classmethod x = .ok u → u = .none := by
    intro x hx
    cases x with
    | none => cases hx; rfl
    | text s => simp [checked, checkSymbol, V.is] at hx
    | obj o =>
      simp only [checked, checkSymbol, V.is] at hx
      cases hk : w.kind o <;> simp [hk] at hx
  rw [convert] at h
  split at h
  · exact absurd h (by simp)
  · exact key _ h
  · exact key _ h

example : convert demo some .method (.text "pkg.sub.C.make".toList) = .ok (.obj 11)
    ∧ convert demo some .classmethod (.text "pkg.sub.C.make".toList) = .error .conversionError := by decide +kernel

/-- A static method, which is a function, is none: bound methods are. -/
theorem C176_static_violated (w : World O) (ev : Str → Option Str) (o : O) (hh : w.hashable o = true) :
    convert w ev .staticmethod (.obj o) = .ok (.obj o) ↔ w.kind o = .method := by
  simp only [convert, builtin, hh, if_true, checked, checkSymbol, V.is]
  by_cases hk : w.kind o = .method <;> simp [hk]

example : convert demo some .staticmethod (.obj 3) = .error .conversionError
    ∧ convert demo some .staticmethod (.obj 9) = .ok (.obj 9) := by decide +kernel

/-! ### C177: a symbol survives writing and reading -/

/-- A module that is imported under its name. -/
theorem C177_module_partial (w : World O) (ev : Str → Option Str) (o : O) (l : List Str) (hl : Names l)
    (hp : Plain w ev (dotted l)) (hk : w.kind o = .module) (ht : w.truthy o = true) (hn : w.nameOf o = dotted l)
    (hi : w.importMod (dotted l) = some o) :
    ∃ s, serialize w (.obj o) = .ok (.text s) ∧ convert w ev .module (.text s) = .ok (.obj o)
      ∧ convert w ev .importable (.text s) = .ok (.obj o) := by
  have hb : Best w l (.obj o) := by
    refine ⟨l, [], hl.1, by simp, ⟨o, hi, .here _⟩, ?_⟩
    intro mod' path' u he hlt
    have := congrArg List.length he
    rw [List.length_append] at this; omega
  refine ⟨dotted l, by simp [serialize, ht, hk, hn], ?_, ?_⟩
  · exact (C174_typed_partial w ev .module (by simp) l hl hp o hb).1 hk
  · exact (C174_typed_partial w ev .importable (by simp) l hl hp o hb).1 trivial

example : serialize demo (.obj 1) = .ok (.text "pkg.sub".toList)
    ∧ convert demo some .module (.text "pkg.sub".toList) = .ok (.obj 1) := by decide +kernel

/-- An object that is found in its module under its qualified name, no longer beginning of which can be imported. -/
theorem C177_member_partial (w : World O) (ev : Str → Option Str) (t : Ty)
    (hty : t ≠ .staticmethod ∧ t ≠ .classmethod) (o : O) (m q : List Str) (hm : m ≠ [])
    (hq : q ≠ []) (hl : Names (m ++ q)) (hp : Plain w ev (dotted (m ++ q))) (hk : w.kind o ≠ .module)
    (ht : w.truthy o = true) (hmod : w.moduleOf o = some (dotted m)) (hqn : w.qualname o = .ok (dotted q))
    (hd : Denotes w (Truthy w) m q (.obj o))
    (hi : ∀ m' q', m ++ q = m' ++ q' → m.length < m'.length → w.importMod (dotted m') = none)
    (hc : Of w t o) :
    ∃ s, serialize w (.obj o) = .ok (.text s) ∧ convert w ev t (.text s) = .ok (.obj o) := by
  have hb : Best w (m ++ q) (.obj o) := by
    refine ⟨m, q, hm, rfl, hd, ?_⟩
    rintro m' q' u he hlt ⟨x, hx, -⟩
    rw [hi m' q' he hlt] at hx; exact absurd hx (by simp)
  refine ⟨dotted (m ++ q), ?_, ?_⟩
  · rw [dotted_append hm hq]
    simp [serialize, ht, hk, hmod, hqn]
  · exact (C174_typed_partial w ev t hty _ hl hp o hb).1 hc

example : serialize demo (.obj 3) = .ok (.text "pkg.sub.C.run".toList)
    ∧ convert demo some .function (.text "pkg.sub.C.run".toList) = .ok (.obj 3)
    ∧ demo.moduleOf 3 = some (dotted (segs ["pkg", "sub"])) ∧ demo.qualname 3 = .ok (dotted (segs ["C", "run"])) := by
  decide +kernel

/-- A bound method is written as the function of its class: it cannot be read as a method. -/
theorem C177_method_violated : ¬ ∀ (w : World Nat) (ev : Str → Option Str) (o : Nat) (s : Str),
    w.kind o = .method → w.truthy o = true → serialize w (.obj o) = .ok (.text s) → Plain w ev s →
    convert w ev .method (.text s) = .ok (.obj o) := fun h =>
  absurd (h demo some 9 "pkg.sub.C.run".toList (by decide +kernel) (by decide +kernel) (by decide +kernel)
    ⟨by decide +kernel, by decide +kernel⟩) (by decide +kernel)

/-- An object without qualified name, such as an instance of a class, cannot be written. -/
theorem C177_instance_violated (w : World O) (o : O) (hk : w.kind o ≠ .module) (ht : w.truthy o = true) (e : Exc)
    (hq : w.qualname o = .error e) : serialize w (.obj o) = .error e := by
  simp [serialize, ht, hk, hq]

example : convert demo some .inst (.obj 8) = .ok (.obj 8) ∧ serialize demo (.obj 8) = .error .attributeError := by
  decide +kernel

/-- An object that is false is not written as a text. -/
theorem C177_false_violated (w : World O) (o : O) (ht : w.truthy o = false) : serialize w (.obj o) = .ok (.obj o) := by
  simp [serialize, ht]

example : demo.truthy 4 = false ∧ convert demo some .importable (.obj 4) = .ok (.obj 4) := by decide +kernel

/-! ### C178: an expression that gives a name stands for the symbol it names -/

/-- The last position that is tried. -/
theorem last_dot (i : Nat) (s : Str) : ∃ l, dots i (s ++ ['.']) = l ++ [i + s.length] := by
  induction s generalizing i with
  | nil => exact ⟨[], by simp [dots]⟩
  | cons c s ih =>
    obtain ⟨l, hl⟩ := ih (i + 1)
    have e : i + (c :: s).length = i + 1 + s.length := by simp; omega
    rw [List.cons_append, dots, hl, e]
    split
    · exact ⟨i :: l, rfl⟩
    · exact ⟨l, rfl⟩

/-- The name of a module, not longer than the expression. -/
theorem C178_module_partial (w : World O) (ev : Str → Option Str) (s x : Str) (o : O) (hb : w.builtins s = none)
    (he : ev s = some x) (hx : x.length ≤ s.length) (hi : w.importMod x = some o) :
    convert w ev .importable (.text s) = .ok (.obj o) := by
  have : importText w ev s = .obj o := by
    obtain ⟨l, hl⟩ := last_dot 0 s
    simp only [Nat.zero_add] at hl
    rw [importText, he, hl]
    have : tryAt w (some x) s s.length = some (.obj o) := by
      simp only [tryAt, List.take_of_length_le hx, hi]
      rw [List.drop_of_length_le (by omega)]
      simp [splitOn, walk]
    simp [this]
  simp [convert, builtin, hb, this, checked, checkSymbol]

example : let ev := fun s => if s = "`'pkg.sub'".toList then some "pkg.sub".toList else some s
    convert demo ev .importable (.text "`'pkg.sub'".toList) = .ok (.obj 1) := by decide +kernel

/-- The dots and the attributes are those of the expression, not of the name it gives: a member of a module is not
found. -/
theorem C178_member_violated : ¬ ∀ (w : World Nat) (ev : Str → Option Str) (s x : Str) (o : Nat),
    w.builtins s = none → ev s = some x → x.length ≤ s.length → Plain w ev x →
    convert w ev .importable (.text x) = .ok (.obj o) → convert w ev .importable (.text s) = .ok (.obj o) := fun h =>
  absurd (h demo (fun s => if s = "`'pkg.sub.C'".toList then some "pkg.sub.C".toList else some s)
    "`'pkg.sub.C'".toList "pkg.sub.C".toList 2 (by decide +kernel) (by decide +kernel) (by decide +kernel)
    ⟨by decide +kernel, by decide +kernel⟩ (by decide +kernel)) (by decide +kernel)

/-- A name that is longer than the expression is cut: what is imported is its beginning, without any attribute. -/
theorem C178_cut_violated (w : World O) (ev : Str → Option Str) (s x : Str) (o : O) (hb : w.builtins s = none)
    (hd : '.' ∉ s) (he : ev s = some x) (hi : w.importMod (x.take s.length) = some o) :
    convert w ev .importable (.text s) = .ok (.obj o) := by
  have : importText w ev s = .obj o := by
    rw [importText, he, dots_skip 0 s ['.'] hd]
    have : tryAt w (some x) s s.length = some (.obj o) := by
      simp only [tryAt, hi]
      rw [List.drop_of_length_le (by omega)]
      simp [splitOn, walk]
    simp [dots, this]
  simp [convert, builtin, hb, this, checked, checkSymbol]

example : let ev := fun s => if s = "`mo".toList then some "pkg.sub.C".toList else some s
    convert demo ev .importable (.text "`mo".toList) = .ok (.obj 0) := by decide +kernel

/-! ### C179: a symbol that is given is kept -/

/-- A hashable object of the kind. -/
theorem C179_kept_partial (w : World O) (ev : Str → Option Str) (t : Ty) (ht : t ≠ .staticmethod ∧ t ≠ .classmethod)
    (o : O) (hh : w.hashable o = true) : convert w ev t (.obj o) = .ok (.obj o) ↔ Of w t o := by
  rw [← checkSymbol_of w t ht o]; exact convert_obj w ev t o hh

example : convert demo some .cls (.obj 2) = .ok (.obj 2) ∧ convert demo some .cls (.obj 3) = .error .conversionError := by
  decide +kernel

/-- Converting twice is converting once, if the result is a hashable object or None. -/
theorem C179_twice_partial (w : World O) (ev : Str → Option Str) (t : Ty) (v u : V O) (h : convert w ev t v = .ok u)
    (hu : ∀ s, u ≠ .text s) (hh : ∀ o, u = .obj o → w.hashable o = true) : convert w ev t u = .ok u := by
  cases u with
  | none => rfl
  | text s => exact absurd rfl (hu s)
  | obj o =>
    rw [convert_obj w ev t o (hh o rfl)]
    have key : ∀ x : V O, checked w t x = .ok (.obj o) → checkSymbol w t (.obj o) = true := by
      intro x hx
      cases x with
      | none => exact absurd hx (by simp [checked])
      | text s => simp only [checked] at hx; split at hx <;> simp at hx
      | obj o' =>
        simp only [checked] at hx
        split at hx
        · next hc => cases hx; exact hc
        · exact absurd hx (by simp)
    rw [convert] at h
    split at h
    · exact absurd h (by simp)
    · exact key _ h
    · exact key _ h

example : convert demo some .importable (.text "pkg.sub.C".toList) = .ok (.obj 2)
    ∧ convert demo some .importable (.obj 2) = .ok (.obj 2) := by decide +kernel

/-- An object that cannot be hashed is refused by TypeError. -/
theorem C179_unhashable_violated (w : World O) (ev : Str → Option Str) (t : Ty) (o : O) (hh : w.hashable o = false) :
    convert w ev t (.obj o) = .error .typeError := by
  simp [convert, builtin, hh]

example : convert demo some .importable (.text "pkg.items".toList) = .ok (.obj 5)
    ∧ convert demo some .importable (.obj 5) = .error .typeError := by decide +kernel

/-- A text found in a module is taken for a name when it is converted again. -/
theorem C179_text_violated : ¬ ∀ (w : World Nat) (ev : Str → Option Str) (v u : V Nat),
    convert w ev .importable v = .ok u → convert w ev .importable u = .ok u := fun h =>
  absurd (h demo some (.text "pkg.name".toList) (.text "pkg.f".toList) (by decide +kernel)) (by decide +kernel)

/-! ### C180: check accepts what conversion keeps -/

/-- For all types but three. -/
theorem C180_check_partial (w : World O) (ev : Str → Option Str) (t : Ty)
    (ht : t ≠ .classmethod ∧ t ≠ .inst ∧ t ≠ .callable) (o : O) (hh : w.hashable o = true) :
    check w t (.obj o) = true ↔ convert w ev t (.obj o) = .ok (.obj o) := by
  rw [convert_obj w ev t o hh]
  cases t <;> simp_all [check, checkSymbol, checkType]

example : check demo .cls (.obj 2) = true ∧ check demo .cls (.obj 3) = false := by decide +kernel

/-- The checks of instances and of callables accept everything. -/
theorem C180_all_violated (w : World O) (t : Ty) (ht : t = .inst ∨ t = .callable) (v : V O) : check w t v = true := by
  rcases ht with rfl | rfl <;> simp [check, checkType]

example : check demo .callable (.obj 4) = true ∧ convert demo some .callable (.obj 4) = .error .conversionError
    ∧ check demo .inst (.obj 2) = true ∧ convert demo some .inst (.obj 2) = .error .conversionError := by decide +kernel

/-- The check of class methods accepts the bound methods, which conversion refuses, and nothing else. -/
theorem C180_classmethod_violated (w : World O) (ev : Str → Option Str) (v : V O) :
    (check w .classmethod v = true ↔ ∃ o, v = .obj o ∧ w.kind o = .method) ∧
    ∀ o, w.hashable o = true → w.kind o = .method → convert w ev .classmethod (.obj o) = .error .conversionError := by
  constructor
  · cases v with
    | none => simp [check, checkType, checkSymbol, V.is]
    | text s => simp [check, checkType, checkSymbol, V.is]
    | obj o =>
      by_cases hk : w.kind o = .method <;> simp [check, checkType, checkSymbol, V.is, hk]
  · intro o hh hk
    simp [checkSymbol, V.is, hk, convert, builtin, hh, checked]

example : demo.kind 11 = .method ∧ demo.hashable 11 = true := by decide +kernel

end Verif.Symbols
