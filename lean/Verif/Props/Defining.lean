import Verif.Lemmas.Defining
import Verif.Props.Builder
/-
C337-C339: class statements.
-/
namespace Verif.Defining
open Verif.Builder

/-! ### Statements for the examples -/

def t (s : String) : Str := s.toList

/-- Keywords of a schema in the body, and of a registered node. -/
def kwEx : Kw := [(t "extends", .list [.str (t "u#/Named")]), (t "properties", .dict [])]
def docsEx : AList Id Val := [(t "u#/Node", .dict kwEx), (t "u#/Named", .dict [(t "type", .str (t "object"))])]

/-- A class with a schema and two bases, the second one no type. -/
def bodyEx : Stmt := ⟨t "Leaf", [some (t "u#/Node"), none], some kwEx, some (t "u#/Leaf")⟩
/-- A class by its identifier, with one base. -/
def docEx : Stmt := ⟨t "Node", [some (t "u#/Base")], none, some (t "u#/Node")⟩

/-- Reading: an object, or a reference with a type. -/
def readEx (d : Kw) : Schema :=
  match AList.get? d "$ref".toList with
  | some (.str r) => .node (some (t "object")) (some r) [] [] [] [] none none [] none [] false
  | _ => obj []

theorem readEx_reads : Reads readEx := by
  intro d _
  unfold readEx
  split <;> exact ⟨rfl, rfl⟩

/-! ### C337 -/

/-- **C337** (the part that holds): a class whose schema is in its body and which derives from classes extends exactly
the types among these, in their order; one that derives from nothing extends what its schema says. -/
theorem C337_body_partial {docs : AList Id Val} {c : Stmt} {d : Kw} (h : FromBody c d) :
    ∃ d', (prepare docs c).1 = .ok d' ∧ (c.bases ≠ [] → names d' = parents c.bases) ∧
      (c.bases = [] → names d' = names d) := by
  rw [prepare_body h]
  refine ⟨_, rfl, ?_, ?_⟩
  · intro hb
    rw [names_typed, if_neg (by simpa using hb), names_extended]
  · intro hb
    rw [names_typed, if_pos (by simpa using hb)]

/-- **C337** (the part that holds): a class defined by its identifier extends what the registered node says. -/
theorem C337_document_partial {docs : AList Id Val} {c : Stmt} {i : Id} {d : Kw} (h : FromDoc docs c i d) :
    ∃ d', (prepare docs c).1 = .ok d' ∧ names d' = names d := by
  rw [(prepare_doc h).2]
  exact ⟨_, rfl, names_typed d⟩

example : FromBody bodyEx kwEx ∧ parents bodyEx.bases = [t "u#/Node"] ∧ names kwEx = [t "u#/Named"] ∧
    FromDoc docsEx docEx (t "u#/Node") kwEx :=
  ⟨⟨rfl, by simp [kwEx]⟩, rfl, by decide +kernel, Or.inl rfl, rfl, by decide +kernel, rfl⟩

/-- **C337** is violated: what the schema of the body extends is lost as soon as the class derives from anything. -/
theorem C337_schema_violated {docs : AList Id Val} {c : Stmt} {d : Kw} {i : Id} (h : FromBody c d) (hb : c.bases ≠ [])
    (_ : i ∈ names d) (hn : i ∉ parents c.bases) : ∀ d', (prepare docs c).1 = .ok d' → i ∉ names d' := by
  obtain ⟨d1, h1, h2, _⟩ := C337_body_partial (docs := docs) h
  intro d' hd
  rw [h1] at hd
  injection hd with hd
  rw [← hd, h2 hb]; exact hn

/-- **C337** is violated: a class defined by its identifier does not extend the classes it derives from. -/
theorem C337_bases_violated {docs : AList Id Val} {c : Stmt} {j i : Id} {d : Kw} (h : FromDoc docs c j d)
    (_ : i ∈ parents c.bases) (hn : i ∉ names d) : ∀ d', (prepare docs c).1 = .ok d' → i ∉ names d' := by
  obtain ⟨d1, h1, h2⟩ := C337_document_partial h
  intro d' hd
  rw [h1] at hd
  injection hd with hd
  rw [← hd, h2]; exact hn

example : t "u#/Named" ∈ names kwEx ∧ t "u#/Named" ∉ parents bodyEx.bases ∧
    t "u#/Base" ∈ parents docEx.bases ∧ t "u#/Base" ∉ names kwEx := by decide +kernel

/-! ### C338 -/

/-- **C338** (the part that holds): a class with a schema in its body leaves the registered nodes alone; a class by
its identifier leaves all other nodes alone, and its own one too if that has a type. -/
theorem C338_nodes_partial {docs : AList Id Val} {c : Stmt} :
    (∀ d, FromBody c d → (prepare docs c).2.1 = docs) ∧
    (∀ i d, FromDoc docs c i d → ∀ j, j ≠ i ∨ "type".toList ∈ AList.keys d →
      AList.get? (prepare docs c).2.1 j = AList.get? docs j) := by
  constructor
  · intro d h; rw [prepare_body h]
  · intro i d h j hj
    rw [(prepare_doc h).2]
    show AList.get? (AList.set docs i _) j = _
    rw [AList.get?_set]
    split
    · rename_i hij
      rcases hj with hj | hj
      · first | exact absurd hij hj | exact absurd hij.symm hj
      · subst hij
        rw [typed_eq.2 hj]; exact h.2.2.2.symm
    · rfl

/-- **C338** is violated: a registered node without a type is given one by the class statement, for all later users
of the document. -/
theorem C338_document_violated {docs : AList Id Val} {c : Stmt} {i : Id} {d : Kw} (h : FromDoc docs c i d)
    (ht : "type".toList ∉ AList.keys d) :
    ∃ d', AList.get? (prepare docs c).2.1 i = some (.dict d') ∧
      AList.get? d' "type".toList = some (.str "object".toList) ∧ d' ≠ d := by
  rw [(prepare_doc h).2]
  refine ⟨typed d, AList.get?_set_self _ _ _, ?_, fun he => ht (typed_eq.1 he)⟩
  unfold typed
  rw [if_neg (fun hc => ht (AList.contains_iff.1 hc))]
  exact AList.get?_set_self _ _ _

/-- **C338**: when the schema in the body of a class that derives from nothing stays as it is: just if it has a
type. -/
theorem C338_body_exact_partial {docs : AList Id Val} {c : Stmt} {d : Kw} (h : FromBody c d) (hb : c.bases = []) :
    (prepare docs c).2.2 = some d ↔ "type".toList ∈ AList.keys d := by
  rw [prepare_body h, if_pos (by simpa using hb)]
  simp only [Option.some.injEq]
  exact typed_eq

/-- **C338** is violated: two classes that share their schema. The first one derives from classes; the second one,
which derives from nothing, extends them as well. -/
theorem C338_shared_violated {docs docs2 : AList Id Val} {c c2 : Stmt} {d : Kw} (h : FromBody c d) (hb : c.bases ≠ [])
    (h2 : c2.own = (prepare docs c).2.2) (hb2 : c2.bases = []) :
    ∃ d2, (prepare docs2 c2).1 = .ok d2 ∧ names d2 = parents c.bases := by
  rw [prepare_body h, if_neg (by simpa using hb)] at h2
  have hne : typed (extended c.bases d) ≠ [] := by
    intro he
    have := typed_key (extended c.bases d)
    rw [he] at this
    cases this
  obtain ⟨d2, h3, _, h4⟩ := C337_body_partial (docs := docs2) (c := c2) ⟨h2, hne⟩
  exact ⟨d2, h3, by rw [h4 hb2, names_typed, names_extended]⟩

example : "type".toList ∉ AList.keys kwEx ∧ bodyEx.bases ≠ [] ∧
    (prepare docsEx bodyEx).2.2 =
      some [(t "extends", .list [.str (t "u#/Node")]), (t "properties", .dict []), (t "type", .str (t "object"))] ∧
    ((prepare docsEx ⟨t "Twig", [], (prepare docsEx bodyEx).2.2, none⟩).1.toOption.map names) = some [t "u#/Node"] := by
  refine ⟨by decide +kernel, by simp [bodyEx], rfl, by decide +kernel⟩

/-! ### C339 -/

theorem defines_run {read cfg docs c s out docs' own' s'} (h : Defines read cfg docs c s out docs' own' s') :
    (∃ e, (prepare docs c).1 = .error e ∧ out = .error e ∧ s' = s) ∨
    (∃ d, (prepare docs c).1 = .ok d ∧ "type".toList ∈ AList.keys d ∧
      Gives cfg (.build (ident c) (some (read d))) (forget (ident c) s) out s') := by
  obtain ⟨n, h⟩ := h
  unfold define at h
  rcases hp : prepare docs c with ⟨o, dd, ow⟩
  rw [hp] at h
  cases o with
  | error e =>
    simp only [Option.some.injEq, Prod.mk.injEq] at h
    exact Or.inl ⟨e, rfl, h.1.symm, h.2.2.2.symm⟩
  | ok d =>
    refine Or.inr ⟨d, rfl, prepare_typed hp, n, ?_⟩
    simp only at h
    cases hr : run cfg n (.build (ident c) (some (read d))) (forget (ident c) s) with
    | none => rw [hr] at h; cases h
    | some y =>
      obtain ⟨o2, s2⟩ := y
      rw [hr] at h
      simp only [Option.some.injEq, Prod.mk.injEq] at h
      rw [h.1, h.2.2.2]

/-- **C339** (the part that holds): a class statement that succeeds, for an identifier not under construction, gives a
class made by it, whatever was registered; after any further history every request for the identifier returns that
class, unless another one was registered over it. -/
theorem C339_replaced_partial {read : Kw → Schema} {cfg : Cfg} {docs docs' : AList Id Val} {c : Stmt} {s s1 s2 : St}
    {own' : Option Kw} {k : Cls} {i : Id} {h : List (Cfg × Req × Res Cls)} (hrd : Reads read) (hu : Under c i)
    (hi : AList.get? s.onC i = none) (hd : Defines read cfg docs c s (.ok k) docs' own' s1)
    (hh : Hist s1 h s2) (hc : ¬ Clash i s2.log) :
    (∃ m, k = .made i m ∧ s.next ≤ m) ∧
    ∀ cfg' r', r'.id = i → Gives cfg' r' s2 (.ok k) s2 := by
  obtain rfl := under_ident hu
  rcases defines_run hd with ⟨e, _, he, _⟩ | ⟨d, _, ht, hg⟩
  · cases he
  · obtain ⟨hb, hty⟩ := hrd d ht
    have hio : AList.get? (forget (ident c) s).onC (ident c) = none := by rw [forget_onC]; exact hi
    have hro : AList.get? (forget (ident c) s).registry (ident c) = none := by rw [forget_get?, if_pos rfl]
    constructor
    · obtain ⟨n, hn⟩ := hg
      cases n with
      | zero => simp [run] at hn
      | succ n =>
        rw [run, hro] at hn
        simp only [hio, start, given] at hn
        cases hsch : read d with
        | bool b => rw [hsch] at hb; cases hb
        | node =>
          rw [hsch] at hn hty
          obtain ⟨m, h1, h2⟩ := fresh_construct (good_run cfg n) hty hn
          exact ⟨m, h1, by simpa [forget_next] using h2⟩
    · refine C76_same_partial (r := .build (ident c) (some (read d))) hio ?_ ?_ hg hh hc
      · intro i b he
        injection he with _ he
        injection he with he
        rw [he] at hb; cases hb
      · intro i b he
        injection he with _ he
        cases he

/-- **C339** (the part that holds): a class statement whose identifier no document has leaves what is registered. -/
theorem C339_unknown_partial {read : Kw → Schema} {cfg : Cfg} {docs docs' : AList Id Val} {c : Stmt} {s s1 : St}
    {i : Id} {own' : Option Kw} {out : Res Cls} (ho : c.own = none ∨ c.own = some []) (hid : c.id = some i)
    (hne : i ≠ []) (hdoc : AList.get? docs i = none) (hd : Defines read cfg docs c s out docs' own' s1) :
    out = .error .exception ∧ s1 = s := by
  have hp : (prepare docs c).1 = .error .exception := by
    have he : empty c.own = true := by rcases ho with h1 | h1 <;> rw [h1] <;> rfl
    cases i with
    | nil => exact absurd rfl hne
    | cons ch i =>
      have hi : ident c = ch :: i := by unfold ident; rw [hid]
      have hn : named c = true := by unfold named; rw [hid]
      unfold prepare
      simp [he, hn, hi, hdoc]
  rcases defines_run hd with ⟨e, h1, h2, h3⟩ | ⟨d, h1, _⟩
  · rw [hp] at h1
    injection h1 with h1
    exact ⟨by rw [h2, ← h1], h3⟩
  · rw [hp] at h1; cases h1

/-- **C339** is violated: when a class statement fails in the construction, the class registered before is gone, and
every later request for the identifier, another class statement included, gives a stand-in for nothing. -/
theorem C339_failed_violated {read : Kw → Schema} {cfg : Cfg} {docs docs' : AList Id Val} {c : Stmt} {s s1 s2 : St}
    {own' : Option Kw} {e : Exc} {i : Id} {d : Kw} {h : List (Cfg × Req × Res Cls)} (hrd : Reads read) (hu : Under c i)
    (hi : AList.get? s.onC i = none) (hp : (prepare docs c).1 = .ok d)
    (hd : Defines read cfg docs c s (.error e) docs' own' s1) (hh : Hist s1 h s2) (hc : ¬ Clash i s2.log) :
    ∀ cfg' r', r'.id = i → ∃ n s3, Gives cfg' r' s2 (.ok (.proxy i n)) s3 ∧
      proxyType i s3 = none := by
  obtain rfl := under_ident hu
  intro cfg' r' hr'
  rcases defines_run hd with ⟨e', h1, _⟩ | ⟨d', h1, ht, hg⟩
  · rw [hp] at h1; cases h1
  · obtain ⟨_, hty⟩ := hrd d' ht
    obtain ⟨out, s3, h2, h3, h4, _⟩ := C77_stuck_partial (sc := read d') (by rw [forget_get?, if_pos rfl])
      (by rw [forget_onC]; exact hi) rfl hg hh hc cfg' r' hr'
    obtain ⟨n, h5⟩ := h4 hty
    rw [h5] at h2
    exact ⟨n, s3, h2, h3⟩

/-- **C339** is violated: an identifier that gave the class before (as a reference to it does) gives the former class
afterwards too, however the class statement ends. -/
theorem C339_stale_violated {read : Kw → Schema} {cfg : Cfg} {docs docs' : AList Id Val} {c : Stmt} {s s1 : St}
    {own' : Option Kw} {out : Res Cls} {j : Id} {k : Cls} {i : Id} (hu : Under c i) (hj : j ≠ i)
    (hk : AList.get? s.registry j = some k) (hd : Defines read cfg docs c s out docs' own' s1)
    (hc : ¬ Clash j s1.log) : ∀ cfg', Gives cfg' (.load j) s1 (.ok k) s1 := by
  obtain rfl := under_ident hu
  intro cfg'
  refine gives_registered ?_
  rcases defines_run hd with ⟨e, _, _, h3⟩ | ⟨d, _, _, hg⟩
  · rw [h3]; exact hk
  · obtain ⟨l, hl⟩ := gives_grows hg
    rcases hl.reg j k (by rw [forget_get?, if_neg hj]; exact hk) with h | ⟨h, _⟩
    · exact h
    · exact absurd (by rw [hl.log]; exact h.left) hc

/-- The leaf is registered, and a reference to it; the class statement makes another one. -/
def stEx : St := ⟨[(t "u#/Leaf", .made (t "u#/Leaf") 0), (t "u#/Tree/items", .made (t "u#/Leaf") 0)], [], 1, []⟩

example : Reads readEx ∧ Under bodyEx (t "u#/Leaf") ∧ AList.get? stEx.onC (ident bodyEx) = none ∧
    ((define readEx cfgEx 9 docsEx bodyEx stEx).map fun x => (x.1.toOption, x.2.2.2.registry)) =
      some (some (.made (t "u#/Leaf") 2),
        [(t "u#/Tree/items", .made (t "u#/Leaf") 0), (t "u#/Leaf", .made (t "u#/Leaf") 2)]) :=
  ⟨readEx_reads, Or.inl ⟨rfl, by decide +kernel⟩, rfl, by decide +kernel⟩

/-- It refers to a type that is not known: the statement fails, and the leaf is lost. -/
def failEx : Stmt := ⟨t "Leaf", [], some [(t "$ref", .str (t "v#/B"))], some (t "u#/Leaf")⟩

example : (prepare docsEx failEx).1 = .ok [(t "$ref", .str (t "v#/B")), (t "type", .str (t "object"))] ∧
    ((define readEx cfgEx 9 docsEx failEx stEx).map fun x => (x.1.toOption, x.2.2.2.registry)) =
      some (none, [(t "u#/Tree/items", .made (t "u#/Leaf") 0)]) ∧
    ((define readEx cfgEx 9 docsEx ⟨t "Leaf", [], none, some (t "u#/Oak")⟩ stEx).map fun x =>
      (x.1.toOption, x.2.2.2.registry)) = some (none, stEx.registry) := by
  refine ⟨rfl, by decide +kernel, by decide +kernel⟩

end Verif.Defining
