import Verif.Lemmas.Tools
import Verif.Props.ChainMap
import Verif.Model.Query
/-
C258 digest of a file; C259 instances in a context; C260 hash of a context; C261 globals of templates; C262 folders of
templates; C263 casting of classes; C264 registries; C265 splitting filters.
-/
namespace Verif.Tools
open Strings (Occurs)

/-! ### C258 -/

/-- Whatever non-empty blocks are read until nothing is, the digest is that of all of them in one. -/
theorem C258_blocks {σ β : Type} (h : Hash σ β) (hs : h.Stream) (bs : List (List β)) (hb : ∀ b ∈ bs, b ≠ [])
    (rest : List (List β)) : getSha1 h (bs ++ [] :: rest) = h.digest (h.update h.init bs.flatten) := by
  rw [getSha1, hashLoop_flatten hs bs hb]

/-- The digest of a file is that of its content, whatever the size of the blocks. -/
theorem C258_file {σ β : Type} (h : Hash σ β) (hs : h.Stream) (k : Nat) (hk : 0 < k) (c : List β) (n : Nat)
    (hn : c.length < n) : getSha1 h (fileReads k n c) = h.digest (h.update h.init c) := by
  rw [getSha1, hashLoop_file hs hk n c hn]

namespace Ex
/-- A hash that reads its input in order. -/
def h : Hash Nat Nat := ⟨7, fun s l => l.foldl (fun s b => s * 31 + b) s, fun s => List.replicate (s % 5) 'x'⟩
end Ex

example : Ex.h.Stream := ⟨fun _ => rfl, fun s a b => by simp [Ex.h, List.foldl_append]⟩
example : getSha1 Ex.h (fileReads 2 4 [1, 2, 3]) = Ex.h.digest (Ex.h.update 7 [1, 2, 3]) ∧
    fileReads 2 4 [1, 2, 3] = [[1, 2], [3], [], []] := by decide +kernel

/-! ### C259 -/

/-- The first map of the context that is an instance of the class and is not the one excluded; the default if there is
none. -/
theorem C259_first_partial (inst : CMap → Bool) (ex : Option Nat) (maps : List CMap) :
    ∃ r, findInstance inst ex false maps = .ok r ∧
      (∀ a, r = some a → ∃ m, m.addr = a ∧ FirstOf (fun m => inst m = true ∧ some m.addr ≠ ex) maps m) ∧
      (r = none → ∀ m ∈ maps, ¬ (inst m = true ∧ some m.addr ≠ ex)) := by
  obtain ⟨h1, h2⟩ := find_first (fun m : CMap => inst m && some m.addr != ex) maps
  refine ⟨_, rfl, fun a ha => ?_, fun hr => ?_⟩
  · obtain ⟨m, hm, hma⟩ := Option.map_eq_some_iff.1 ha
    obtain ⟨pre, post, e, hp, hn⟩ := h1 m hm
    exact ⟨m, hma, pre, post, e, by simpa using hp, fun y hy => by simpa using hn y hy⟩
  · intro m hm
    simpa using h2 (Option.map_eq_none_iff.1 hr) m hm

/-- Asked for the last one, it fails, whatever there is. -/
theorem C259_reverse_violated (inst : CMap → Bool) (ex : Option Nat) (maps : List CMap) :
    findInstance inst ex true maps = .error .typeError := rfl

/-- What is in a context inside the context is not found. -/
theorem C259_nested_violated (inst : CMap → Bool) (a : Nat) (inner : List CMap) (h : inst (.ctx a inner) = false) :
    findInstance inst none false [.ctx a inner] = .ok none := by
  simp [findInstance, h]

example : findInstance (fun | .obj _ => true | _ => false) (some 1) false [.ctx 0 [.obj 9], .obj 1, .obj 2, .obj 3] =
    .ok (some 2) := by decide +kernel

/-! ### C260 -/

/-- Two contexts in which every key has the same value have the same hash, whatever maps the values come from and
whatever order sets are gone through. -/
theorem C260_same_lookups_partial {υ : Type} {lt : Str → Str → Bool} (hl : StrictTotal lt)
    (o1 o2 : List Str → List Str) (h1 : ∀ l, (o1 l).Perm l) (h2 : ∀ l, (o2 l).Perm l)
    (rep : List (Str × υ) → Str) (hash : Str → Int) {c d : ChainMap.Chain Str υ} (wc : c.WF) (wd : d.WF)
    (h : ∀ k v, ChainMap.Binds c k v ↔ ChainMap.Binds d k v) :
    ∃ n, ctxHash lt o1 rep hash c = .ok n ∧ ctxHash lt o2 rep hash d = .ok n := by
  obtain ⟨x, hx, nx, bx, -⟩ := ChainMap.C02_merged o1 h1 wc
  obtain ⟨y, hy, ny, by', -⟩ := ChainMap.C02_merged o2 h2 wd
  have e : sortItems lt x = sortItems lt y := sorted_unique hl _ _ (sortItems_sorted hl x nx) (sortItems_sorted hl y ny)
    fun p => by
      rw [mem_sortItems, mem_sortItems]
      exact (bx p.1 p.2).trans ((h p.1 p.2).trans (by' p.1 p.2).symm)
  exact ⟨hash (rep (sortItems lt x)), by rw [ctxHash, hx], by rw [ctxHash, hy, e]⟩

/-- Values that are equal but are not written alike: the contexts are equal and their hashes differ, for any `repr` and
`hash` that tell them apart. -/
theorem C260_equal_violated (lt : Str → Str → Bool) (ord : List Str → List Str) (k : Str) (hord : ∀ l, (ord l).Perm l)
    (rep : List (Str × Val) → Str) (hash : Str → Int) (h : hash (rep [(k, .int 1)]) ≠ hash (rep [(k, .bool true)])) :
    Query.pyEq (.int 1) (.bool true) = true ∧
    ctxHash lt ord rep hash (.chain [.dict [(k, .int 1)]]) ≠ ctxHash lt ord rep hash (.chain [.dict [(k, .bool true)]]) := by
  refine ⟨by decide +kernel, ?_⟩
  have ho : ord [k] = [k] := List.perm_singleton.1 (hord [k])
  have hm : ∀ v : Val, (ChainMap.Chain.chain [.dict [(k, v)]]).merged ord = .ok [(k, v)] := by
    intro v
    simp [ChainMap.Chain.merged, ChainMap.merge, ChainMap.Chain.iter, ChainMap.mergeKeys, ChainMap.Chain.getItem, AList.keys, AList.get?,
      AList.set, ho]
  simp only [ctxHash, hm]
  intro e
  exact h (by injection e)

example : ctxHash (fun a b => a.length < b.length) id (fun l => (l.map Prod.fst).flatten) (fun s => s.length)
    (.chain [.dict [("bb".toList, 1)], .dict [("a".toList, 2), ("bb".toList, 3)]]) = .ok 3 := by decide +kernel

/-! ### C261 -/

/-- Once the default environment exists, nothing changes its globals. -/
theorem C261_frozen {s : Env} {g : AList Str Val} (h : s.env = some g) (ops : List EnvOp) :
    (envRun ops s).env = some g := by
  induction ops generalizing s with
  | nil => exact h
  | cons op ops ih =>
    refine ih (s := envStep s op) ?_
    cases op with
    | extend kw => exact h
    | use => simp [envStep, h]

theorem run_extends (kws : List (AList Str Val)) (s : Env) :
    envRun (kws.map .extend) s = { s with globals := kws.foldl AList.update s.globals } := by
  induction kws generalizing s with
  | nil => rfl
  | cons kw kws ih => exact ih _

/-- What is added before the first use is seen: of several values for a name, the one added last. -/
theorem C261_before_partial {s : Env} (h : s.env = none) (pre post : List (AList Str Val)) (kw : AList Str Val)
    (wf : kw.WF) (wfp : ∀ e ∈ post, e.WF) {k : Str} {v : Val} (hk : AList.get? kw k = some v)
    (hp : ∀ e ∈ post, AList.get? e k = none) (ops : List EnvOp) :
    ∃ g, (envRun ((pre ++ kw :: post).map EnvOp.extend ++ EnvOp.use :: ops) s).env = some g ∧ AList.get? g k = some v := by
  refine ⟨(pre ++ kw :: post).foldl AList.update s.globals, ?_, ?_⟩
  · have : envRun ((pre ++ kw :: post).map EnvOp.extend ++ EnvOp.use :: ops) s =
        envRun ops (envStep (envRun ((pre ++ kw :: post).map EnvOp.extend) s) .use) := by
      simp [envRun, List.foldl_append]
    rw [this]
    refine C261_frozen ?_ ops
    rw [run_extends]
    simp [envStep, h]
  · rw [List.foldl_append, List.foldl_cons]
    generalize hg : AList.update (List.foldl AList.update s.globals pre) kw = g
    have hgk : AList.get? g k = some v := by rw [← hg, AList.get?_update _ wf, hk]; rfl
    clear hg
    induction post generalizing g with
    | nil => exact hgk
    | cons e post ih =>
      rw [List.foldl_cons]
      refine ih (fun e he => wfp e (List.mem_cons_of_mem _ he)) (fun e he => hp e (List.mem_cons_of_mem _ he)) _ ?_
      rw [AList.get?_update _ (wfp e (List.mem_cons_self ..)), hp e (List.mem_cons_self ..)]
      exact hgk

/-- What is added afterwards is never seen, although it is among the globals. -/
theorem C261_after_violated {s : Env} {g : AList Str Val} (h : s.env = some g) {k : Str} (hk : AList.get? g k = none)
    (v : Val) (ops : List EnvOp) :
    AList.get? (envStep s (.extend [(k, v)])).globals k = some v ∧
    ∃ g', (envRun (.extend [(k, v)] :: ops) s).env = some g' ∧ AList.get? g' k = none := by
  refine ⟨?_, g, C261_frozen h _, hk⟩
  show AList.get? (AList.update s.globals [(k, v)]) k = some v
  rw [AList.get?_update _ (by simp [AList.WF, AList.keys])]
  simp [AList.get?]

example : (envRun [.extend [("a".toList, .int 1)], .use, .extend [("b".toList, .int 2)], .use] ⟨[], none⟩).env =
    some [("a".toList, .int 1)] := by decide +kernel

/-! ### C262 -/

theorem folders_get (m : Str) (ps : List Folder) (acc : AList Str Folder) (k : Str) :
    AList.get? (ps.foldl (fun acc p => AList.set acc m [p.getLast?.getD []]) acc) k =
      if m = k then (match ps.getLast? with
        | some p => some [p.getLast?.getD []]
        | none => AList.get? acc k) else AList.get? acc k := by
  induction ps generalizing acc with
  | nil => simp
  | cons p ps ih =>
    rw [List.foldl_cons, ih, AList.get?_set]
    by_cases e : m = k
    · simp only [e, if_true]
      cases ps with
      | nil => rfl
      | cons q ps =>
        rw [List.getLast?_cons_cons]
        cases hq : (q :: ps).getLast? with
        | none => simp at hq
        | some r => rfl
    · simp [e]

theorem loader_absent (reg : AList Str (List Folder)) (acc : AList Str Folder) (k : Str) (h : AList.get? reg k = none) :
    AList.get? (loaderMapping reg acc) k = AList.get? acc k := by
  induction reg generalizing acc with
  | nil => rfl
  | cons q reg ih =>
    obtain ⟨m, ps⟩ := q
    simp only [AList.get?] at h
    split at h
    · cases h
    · next hne =>
      rw [loaderMapping, ih _ h, folders_get, if_neg hne]

/-- For each module, only the folder registered last is searched, and only by its own name, in the folder of the
module. -/
theorem C262_exact {reg : AList Str (List Folder)} (wf : reg.WF) {m : Str} {ps : List Folder} {p : Folder}
    (h : AList.get? reg m = some (ps ++ [p])) :
    AList.get? (loaderMapping reg []) m = some [p.getLast?.getD []] := by
  suffices ∀ acc, AList.get? (loaderMapping reg acc) m = some [p.getLast?.getD []] from this []
  induction reg with
  | nil => cases h
  | cons q reg ih =>
    intro acc
    obtain ⟨k, qs⟩ := q
    have wf' : k ∉ AList.keys reg ∧ AList.WF reg := List.nodup_cons.1 wf
    simp only [AList.get?] at h
    rw [loaderMapping]
    split at h
    · next e =>
      cases h
      subst e
      rw [loader_absent _ _ _ ((AList.get?_eq_none ..).2 wf'.1), folders_get]
      simp
    · exact ih wf'.2 h _

/-- A module with one folder, inside its own: that folder is searched. -/
theorem C262_one_folder_partial {reg : AList Str (List Folder)} (wf : reg.WF) {m : Str} (h : AList.get? reg m = none)
    (n : Str) : AList.get? (loaderMapping (registerFolder reg m [n]) []) m = some [n] := by
  have := C262_exact (reg := registerFolder reg m [n]) (AList.wf_set wf ..) (m := m) (ps := []) (p := [n])
    (by simp [registerFolder, h, AList.get?_set_self])
  simpa using this

/-- A second folder takes the place of the first. -/
theorem C262_two_folders_violated {reg : AList Str (List Folder)} (wf : reg.WF) {m : Str} (h : AList.get? reg m = none)
    {f g : Str} (hne : f ≠ g) :
    AList.get? (loaderMapping (registerFolder (registerFolder reg m [f]) m [g]) []) m = some [g] := by
  have := C262_exact (reg := registerFolder (registerFolder reg m [f]) m [g]) (AList.wf_set (AList.wf_set wf ..) ..)
    (m := m) (ps := [[f]]) (p := [g]) (by simp [registerFolder, h, AList.get?_set_self, Ne.symm hne])
  simpa using this

/-- A folder further inside is looked for in the wrong place. -/
theorem C262_deep_violated {reg : AList Str (List Folder)} (wf : reg.WF) {m : Str} (h : AList.get? reg m = none)
    (d : Str) (ds : Folder) (n : Str) :
    AList.get? (loaderMapping (registerFolder reg m (d :: ds ++ [n])) []) m = some [n] ∧ [n] ≠ d :: ds ++ [n] := by
  have := C262_exact (reg := registerFolder reg m (d :: ds ++ [n])) (AList.wf_set wf ..) (m := m) (ps := [])
    (p := d :: ds ++ [n]) (by simp [registerFolder, h, AList.get?_set_self])
  refine ⟨by rw [this, List.getLast?_append]; simp, fun e => ?_⟩
  have := congrArg List.length e
  simp at this

example : loaderMapping (registerFolder (registerFolder [] "m".toList ["t".toList]) "m".toList ["a".toList, "u".toList]) [] =
    [("m".toList, ["u".toList])] := by decide +kernel

/-! ### C263 -/

/-- Casting is possible to the classes of the order of a class only. -/
theorem C263_parents (w : World) (cls other : Nat) :
    (∃ attrs, castAttrs w cls other = .ok attrs) ↔ other ∈ w.mro cls := by
  unfold castAttrs
  split <;> simp [*]

/-- A class cast to a parent: a public attribute the parent has is that of the parent; of any other attribute, what
the classes the parent does not have define, and if they do not, what the parent has. -/
theorem C263_attributes {w : World} {cls other : Nat} {attrs : AList Str Nat} (h : castAttrs w cls other = .ok attrs)
    (k : Str) {mine theirs : Option Nat} (hm : Attr w k ((w.mro cls).filter (fun b => b ∉ w.mro other)) mine)
    (ht : Attr w k (w.mro other) theirs) :
    castLookup w other attrs k = (if k.head? ≠ some '_' ∧ theirs ≠ none then theirs
      else if mine ≠ none then mine else theirs) := by
  unfold castAttrs at h
  split at h
  · cases h
    have e1 := (chainDict_attr w k ((w.mro cls).filter (fun b => b ∉ w.mro other))).unique hm
    have e2 := (chainDict_attr w k (w.mro other)).unique ht
    have e3 := (findSome_attr w k (w.mro other)).unique ht
    rw [castLookup, AList.get?_update _ (wf_filter _ (wf_chainDict _)), get?_filter isPublic, e1, e2, e3]
    by_cases hp : k.head? = some '_'
    · have : isPublic k = false := by simp [isPublic, hp]
      cases mine <;> simp [this, hp]
    · have : isPublic k = true := by simp [isPublic, hp]
      cases theirs <;> cases mine <;> simp [this, hp]
  · cases h

namespace Ex
/-- `class A: x = 1; _p = 2`, `class B(A): x = 3; _p = 4; y = 5`. -/
def w : World where
  mro := fun c => if c = 0 then [0] else [1, 0]
  dict := fun c => if c = 0 then [("x".toList, 1), ("_p".toList, 2)] else [("x".toList, 3), ("_p".toList, 4), ("y".toList, 5)]
  wf := fun c => by
    by_cases h : c = 0 <;> simp only [h, if_true, if_false] <;> (unfold AList.WF; decide +kernel)
end Ex

example : (castAttrs Ex.w 1 0).map (fun a => ["x", "_p", "y", "z"].map (fun k => castLookup Ex.w 0 a k.toList)) =
    .ok [some 1, some 4, some 5, none] := by decide +kernel

/-! ### C264 -/

/-- A weak registry does not give the object registered but what calling it gives. -/
theorem C264_weak_violated (alive : Nat → Bool) {reg : AList Str Obj} {k : Str} {o : Obj} (h : AList.get? reg k = some o)
    (ha : alive o.addr = true) :
    (o.call = none → weakGet alive reg k = .error .typeError) ∧ (∀ r, o.call = some r → weakGet alive reg k = .ok r) ∧
    (weakGet alive reg k = .ok o.addr ↔ o.call = some o.addr) := by
  simp only [weakGet, h, ha, if_true]
  cases o.call <;> simp

/-- A name that is not registered, or whose object is gone, is a KeyError. -/
theorem C264_weak_absent (alive : Nat → Bool) (reg : AList Str Obj) (k : Str)
    (h : ∀ o, AList.get? reg k = some o → alive o.addr = false) : weakGet alive reg k = .error .keyError := by
  unfold weakGet
  split
  · rfl
  · next o ho => rw [h o ho]; rfl

/-- A registry of classes gives the class registered; its default is never given. -/
theorem C264_classes_partial (reg : AList Str Obj) (k : Str) (d : Option Nat) :
    (∀ o, AList.get? reg k = some o → classGet reg k d = some o.addr) ∧
    (AList.get? reg k = none → classGet reg k d = none) :=
  ⟨fun o h => by rw [classGet, h]; rfl, fun h => by rw [classGet, h]; rfl⟩

theorem C264_default_violated (reg : AList Str Obj) (k : Str) (h : AList.get? reg k = none) (d : Nat) :
    classGet reg k (some d) ≠ some d := by
  rw [classGet, h]; exact fun e => by cases e

example : weakGet (fun _ => true) [("a".toList, ⟨1, none⟩)] "a".toList = .error .typeError ∧
    weakGet (fun _ => true) [("a".toList, ⟨1, some 2⟩)] "a".toList = .ok 2 ∧
    classGet [("a".toList, ⟨1, none⟩)] "b".toList (some 7) = none := by decide +kernel

/-! ### C265 -/

theorem cuts_enough {sep : Str} (hne : sep ≠ []) {m : Int} (hm : m < 0) {s : Str} {ps : List Str}
    (hj : joinWith sep ps = s) : ps.length ≤ cuts m s := by
  have := pieces_le hne ps
  rw [hj] at this
  simpa [cuts, hm] using this

/-- `split` cuts at the occurrences of the separator from the left, as many times as asked for or, for a negative
number, at all: the pieces, joined again, are the text. -/
theorem C265_split {sep : Str} (hne : sep ≠ []) (s : Str) (m : Int) :
    ∃ ps, splitFilter (some s) sep m = .ok ps ∧ joinWith sep ps = s ∧
      (0 ≤ m → FromLeft sep m.toNat s ps ∧ ps.length ≤ m.toNat + 1) ∧
      (m < 0 → ∃ n, FromLeft sep n s ps ∧ ∀ p ∈ ps, ¬ Occurs sep p) := by
  have he : sep.isEmpty = false := by simpa using hne
  have hf := splitN_fromLeft hne (cuts m s) s
  refine ⟨_, by simp only [splitFilter, Option.getD_some, he]; rfl, hf.join, fun h => ?_, fun h => ?_⟩
  · have : cuts m s = m.toNat := by simp [cuts, show ¬ m < 0 by omega]
    rw [this] at hf ⊢
    exact ⟨hf, hf.length⟩
  · exact ⟨_, hf, hf.clean (cuts_enough hne h hf.join)⟩

/-- `rsplit`, from the right. -/
theorem C265_rsplit {sep : Str} (hne : sep ≠ []) (s : Str) (m : Int) :
    ∃ ps, rsplitFilter (some s) sep m = .ok ps ∧ joinWith sep ps = s ∧
      (0 ≤ m → FromRight sep m.toNat s ps ∧ ps.length ≤ m.toNat + 1) ∧
      (m < 0 → ∃ n, FromRight sep n s ps ∧ ∀ p ∈ ps, ¬ Occurs sep p) := by
  have he : sep.isEmpty = false := by simpa using hne
  have hf := rsplit_fromRight hne (cuts m s) s
  refine ⟨_, by simp only [rsplitFilter, Option.getD_some, he]; rfl, hf.join, fun h => ?_, fun h => ?_⟩
  · have : cuts m s = m.toNat := by simp [cuts, show ¬ m < 0 by omega]
    rw [this] at hf ⊢
    exact ⟨hf, hf.length⟩
  · exact ⟨_, hf, hf.clean (cuts_enough hne h hf.join)⟩

/-- Nothing is one empty piece, and an empty separator is refused. -/
theorem C265_edges (sep : Str) (hne : sep ≠ []) (s : Option Str) (m : Int) :
    splitFilter none sep m = .ok [[]] ∧ rsplitFilter none sep m = .ok [[]] ∧
    splitFilter s [] m = .error .valueError ∧ rsplitFilter s [] m = .error .valueError := by
  have he : sep.isEmpty = false := by simpa using hne
  have h0 : ¬ Occurs sep [] := by
    rintro ⟨a, b, h⟩
    simp at h
    exact hne h.2.1
  refine ⟨?_, ?_, rfl, rfl⟩
  · simp only [splitFilter, Option.getD_none, he]
    cases cuts m [] with
    | zero => rfl
    | succ n => rw [splitN, (cutFirst_none hne).2 h0]; rfl
  · simp only [rsplitFilter, Option.getD_none, he]
    cases cuts m [] with
    | zero => rfl
    | succ n => rw [Strings.rsplit, (Strings.cutLast_none hne).2 h0]; rfl

example : splitFilter (some "aaa,b".toList) "aa".toList (-1) = .ok ["".toList, "a,b".toList] ∧
    rsplitFilter (some "aaa,b".toList) "aa".toList (-1) = .ok ["a".toList, ",b".toList] ∧
    splitFilter (some "a,b,c".toList) ",".toList 1 = .ok ["a".toList, "b,c".toList] ∧
    rsplitFilter (some "a,b,c".toList) ",".toList 1 = .ok ["a,b".toList, "c".toList] := by decide +kernel

end Verif.Tools
