import Verif.Spec.Labels
import Verif.Lemmas.Strings
/-
C342: the canonical names and texts instances remember.
-/
namespace Verif.Labels
open Verif.Paths (canonicalName)

theorem canonicalName_eq (n : Option Str) (p : Option Str) (ps : List (Option Str)) :
    canonicalName n (p :: ps) = some (joinWith ['.'] ((n :: p :: ps).reverse.map word)) := by
  induction ps generalizing n p with
  | nil => cases n <;> cases p <;> rfl
  | cons r rs ih =>
    have hs : ∀ m, Paths.shown m = word m := by intro m; cases m <;> rfl
    have e1 : (n :: p :: r :: rs).reverse.map word = (p :: r :: rs).reverse.map word ++ [word n] := by
      rw [List.reverse_cons, List.map_append]; rfl
    rw [canonicalName, ih, e1, Strings.joinWith_append_singleton _ _ (by simp), hs n]
    rfl

theorem cname_present (w : World) (i : Nat) : cname w i = present w i := by
  unfold cname present
  generalize (w.drop i).map Inst.name = ns
  cases ns with
  | nil => rfl
  | cons n ps =>
    cases ps with
    | nil => rfl
    | cons p ps => exact canonicalName_eq n p ps

theorem label_written (q : Str) (parts : Option Str → List Str) (c n : Option Str) :
    label q parts c n = written q c (parts n) := by
  rcases c with _ | _ | ⟨ch, s⟩
  · rfl
  · rfl
  · rfl

/-- What is remembered of the instance at `i` is what would be computed. -/
structure Current (q : Str) (parts : Option Str → List Str) (w : World) (i : Nat) : Prop where
  name : ∀ x, w[i]? = some x → x.validated ≠ none → x.validated = cname w i
  text : ∀ x s, w[i]? = some x → x.str = some s → s = label q parts (cname w i) x.name

theorem alter_get (w : World) (i j : Nat) (f : Inst → Inst) :
    (alter w i f)[j]? = if i = j then (w[j]?).map f else w[j]? := by
  unfold alter
  rw [List.getElem?_modify]
  split <;> simp

theorem names_alter (w : World) (j : Nat) (f : Inst → Inst) (i : Nat) (h : j < i ∨ ∀ x, (f x).name = x.name) :
    ((alter w j f).drop i).map Inst.name = (w.drop i).map Inst.name := by
  apply List.ext_getElem?
  intro k
  simp only [List.getElem?_map, List.getElem?_drop, alter_get]
  split
  · rename_i he
    rcases h with h | h
    · omega
    · cases w[i + k]? with
      | none => rfl
      | some x => simp [h]
  · rfl

theorem cname_alter {w : World} {j : Nat} {f : Inst → Inst} {i : Nat} (h : j < i ∨ ∀ x, (f x).name = x.name) :
    cname (alter w j f) i = cname w i := by
  unfold cname
  rw [names_alter w j f i h]

theorem current_alter {q parts w i j} {f : Inst → Inst} (hc : Current q parts w i) (hj : j < i ∨ ∀ x, (f x).name = x.name)
    (h1 : j = i → ∀ x, w[i]? = some x → (f x).validated ≠ none → (f x).validated = cname w i)
    (h2 : j = i → ∀ x s, w[i]? = some x → (f x).str = some s → s = label q parts (cname w i) (f x).name) :
    Current q parts (alter w j f) i := by
  constructor
  · intro x hx hv
    rw [cname_alter hj]
    rw [alter_get] at hx
    split at hx
    · rename_i he
      cases hw : w[i]? with
      | none => rw [hw] at hx; cases hx
      | some y =>
        rw [hw] at hx
        injection hx with hx
        subst hx
        exact h1 he y hw hv
    · exact hc.name x hx hv
  · intro x s hx hs
    rw [cname_alter hj]
    rw [alter_get] at hx
    split at hx
    · rename_i he
      cases hw : w[i]? with
      | none => rw [hw] at hx; cases hx
      | some y =>
        rw [hw] at hx
        injection hx with hx
        subst hx
        exact h2 he y s hw hs
    · exact hc.text x s hx hs

theorem current_step {q parts w i} (hc : Current q parts w i) (op : Op) (ho : KeepsAbove i op) :
    Current q parts (step q parts w op) i := by
  cases op with
  | rename j n =>
    simp only [step, rename]
    by_cases hji : j = i
    · subst hji
      constructor
      · intro x hx hv
        rw [alter_get, if_pos rfl] at hx
        cases hw : w[j]? with
        | none => rw [hw] at hx; cases hx
        | some y =>
          rw [hw] at hx
          injection hx with hx
          subst hx
          by_cases hn : n = y.name
          · have hs : setName n y = y := by unfold setName; rw [if_pos hn]
            have hw2 : alter w j (setName n) = w := by
              apply List.ext_getElem?
              intro k
              rw [alter_get]
              split
              · rename_i hk; subst hk; rw [hw]; simp [hs]
              · rfl
            rw [hs] at hv ⊢
            rw [hw2]
            exact hc.name y hw hv
          · exfalso; apply hv; unfold setName; rw [if_neg hn]
      · intro x s hx hs'
        rw [alter_get, if_pos rfl] at hx
        cases hw : w[j]? with
        | none => rw [hw] at hx; cases hx
        | some y =>
          rw [hw] at hx
          injection hx with hx
          subst hx
          by_cases hn : n = y.name
          · have hs : setName n y = y := by unfold setName; rw [if_pos hn]
            have hw2 : alter w j (setName n) = w := by
              apply List.ext_getElem?
              intro k
              rw [alter_get]
              split
              · rename_i hk; subst hk; rw [hw]; simp [hs]
              · rfl
            rw [hs] at hs' ⊢
            rw [hw2]
            exact hc.text y s hw hs'
          · unfold setName at hs'; rw [if_neg hn] at hs'; cases hs'
    · have hlt : j < i := by have : j ≤ i := ho; omega
      exact current_alter hc (Or.inl hlt) (fun h => absurd h hji) (fun h => absurd h hji)
  | read j =>
    simp only [step, read]
    split
    · exact hc
    · split
      · refine current_alter hc (Or.inr fun _ => rfl) ?_ ?_
        · intro hj x _ _; rw [hj]; rfl
        · intro hj x s hx hs
          simp only [compute] at hs ⊢
          split at hs
          · exact hc.text x s hx hs
          · cases hs
      · exact hc
  | text j =>
    simp only [step, text]
    split
    · exact hc
    · rename_i x hx
      split
      · exact hc
      · refine current_alter hc (Or.inr fun _ => rfl) ?_ ?_
        · intro _ y hy hv; exact hc.name y hy hv
        · intro hj y s hy hs
          subst hj
          rw [hx] at hy
          injection hy with hy
          subst hy
          simp only [Option.some.injEq] at hs
          exact hs.symm

theorem current_run {q parts} {i : Nat} : ∀ (ops : List Op) {w : World}, Current q parts w i →
    (∀ op ∈ ops, KeepsAbove i op) → Current q parts (run q parts w ops) i
  | [], _, hc, _ => hc
  | op :: ops, _, hc, h =>
    current_run ops (current_step hc op (h _ (List.mem_cons_self ..))) fun o ho => h o (List.mem_cons_of_mem _ ho)

/-- **C342** (the part that holds): as long as no instance above is renamed, whatever else is done, the canonical name
and the text of an instance are those of the present names. -/
theorem C342_current_partial {q : Str} {parts : Option Str → List Str} {w : World} (hw : ∀ x ∈ w, New x) {ops : List Op}
    {i : Nat} (h : ∀ op ∈ ops, KeepsAbove i op) {x : Inst} (hx : (run q parts w ops)[i]? = some x) :
    (read (run q parts w ops) i).1 = present (run q parts w ops) i ∧
    (text q parts (run q parts w ops) i).1 = written q (present (run q parts w ops) i) (parts x.name) := by
  rw [← cname_present, ← label_written]
  have h0 : Current q parts w i := by
    constructor
    · intro y hy hv; exact absurd (hw y (List.mem_of_getElem? hy)).2.2.1 hv
    · intro y s hy hs; rw [(hw y (List.mem_of_getElem? hy)).1] at hs; cases hs
  have hc := current_run ops h0 h
  generalize run q parts w ops = w' at *
  constructor
  · unfold read
    rw [hx]
    simp only
    split
    · rfl
    · rename_i ho
      refine hc.name x hx ?_
      intro hn
      apply ho
      unfold outdated
      rw [hn]
      rfl
  · unfold text
    rw [hx]
    simp only
    split
    · rename_i s hs; exact hc.text x s hx hs
    · rfl

/-- **C342**: a name that is given is the present name of the instance, and changes no other. -/
theorem C342_given (w : World) (i : Nat) (n : Option Str) :
    (rename w i n).map Inst.name = (w.map Inst.name).set i n := by
  apply List.ext_getElem?
  intro k
  unfold rename
  rw [List.getElem?_map, alter_get, List.getElem?_set, List.length_map]
  split
  · rename_i hk
    subst hk
    cases hw : w[i]? with
    | none =>
      rw [List.getElem?_eq_none_iff] at hw
      rw [if_neg (by omega)]; rfl
    | some x =>
      obtain ⟨hl, _⟩ := List.getElem?_eq_some_iff.1 hw
      rw [if_pos hl]
      simp only [Option.map_some, setName]
      split
      · rename_i hn; rw [hn]
      · rfl
  · rw [List.getElem?_map]

theorem get_elsewhere {q parts} {w : World} {i : Nat} {op : Op} (h : Elsewhere i op) :
    (step q parts w op)[i]? = w[i]? := by
  cases op with
  | rename j n => simp only [step, rename]; rw [alter_get, if_neg h]
  | read j =>
    simp only [step, read]
    split
    · rfl
    · split
      · rw [alter_get, if_neg h]
      · rfl
  | text j =>
    simp only [step, text]
    split
    · rfl
    · split
      · rfl
      · rw [alter_get, if_neg h]

theorem get_run {q parts} {i : Nat} : ∀ (ops : List Op) {w : World}, (∀ op ∈ ops, Elsewhere i op) →
    (run q parts w ops)[i]? = w[i]?
  | [], _, _ => rfl
  | op :: ops, w, h => by
    show (run q parts (step q parts w op) ops)[i]? = w[i]?
    rw [get_run ops (fun o ho => h o (List.mem_cons_of_mem _ ho)), get_elsewhere (h _ (List.mem_cons_self ..))]

/-- **C342** is violated: once its canonical name has been read, an instance keeps it whatever the instances above are
called afterwards. -/
theorem C342_name_violated {q : Str} {parts : Option Str → List Str} {w : World} {i : Nat} {c : Str}
    (hr : (read w i).1 = some c) {ops : List Op} (h : ∀ op ∈ ops, Elsewhere i op) :
    (read (run q parts (read w i).2 ops) i).1 = some c := by
  unfold read at hr
  cases hx : w[i]? with
  | none => rw [hx] at hr; cases hr
  | some x =>
    rw [hx] at hr
    simp only at hr
    by_cases ho : outdated x = true
    · rw [if_pos ho] at hr
      have h2 : (read w i).2 = alter w i (compute (cname w i)) := by unfold read; rw [hx]; simp only; rw [if_pos ho]
      have h3 : (run q parts (read w i).2 ops)[i]? = some (compute (cname w i) x) := by
        rw [get_run ops h, h2, alter_get, if_pos rfl, hx]; rfl
      generalize run q parts (read w i).2 ops = w' at h3 ⊢
      unfold read
      rw [h3]
      have hr : cname w i = some c := hr
      simp only [outdated, compute, hr]
      simp
    · rw [if_neg ho] at hr
      have h2 : (read w i).2 = w := by unfold read; rw [hx]; simp only; rw [if_neg ho]
      have h3 : (run q parts (read w i).2 ops)[i]? = some x := by rw [get_run ops h, h2, hx]
      generalize run q parts (read w i).2 ops = w' at h3 ⊢
      unfold read
      rw [h3]
      simp only
      rw [if_neg ho]; exact hr

/-- **C342** is violated: once printed, an instance has this text whatever the instances above are called afterwards. -/
theorem C342_text_violated {q : Str} {parts : Option Str → List Str} {w : World} {i : Nat} (hi : i < w.length)
    {ops : List Op} (h : ∀ op ∈ ops, Elsewhere i op) :
    (text q parts (run q parts (text q parts w i).2 ops) i).1 = (text q parts w i).1 := by
  have hx : w[i]? = some w[i] := List.getElem?_eq_getElem hi
  generalize w[i] = x at hx
  cases hs : x.str with
  | some s =>
    have h2 : text q parts w i = (s, w) := by unfold text; rw [hx]; simp only [hs]
    rw [h2]
    simp only
    unfold text
    rw [get_run ops h, hx]
    simp only [hs]
  | none =>
    have h2 : text q parts w i = (label q parts (cname w i) x.name,
        alter w i fun x => { x with str := some (label q parts (cname w i) x.name) }) := by
      unfold text
      rw [hx]
      simp only [hs]
      congr 1
      apply List.ext_getElem?
      intro k
      rw [alter_get, alter_get]
      split
      · rename_i hk; subst hk; rw [hx]; rfl
      · rfl
    rw [h2]
    simp only
    unfold text
    rw [get_run ops h, alter_get, if_pos rfl, hx]
    rfl

/-! A leaf in a branch in a tree. -/

def t (s : String) : Str := s.toList
def leaf : World := [⟨some (t "leaf"), none, none, none, none⟩, ⟨some (t "branch"), none, none, none, none⟩,
  ⟨some (t "tree"), none, none, none, none⟩]
def noParts (_ : Option Str) : List Str := []

example : (∀ x ∈ leaf, New x) ∧ KeepsAbove 1 (.rename 0 none) ∧ Elsewhere 0 (.rename 2 (some (t "bush"))) ∧
    (read leaf 0).1 = some (t "tree.branch.leaf") ∧ (text (t "Leaf") noParts leaf 0).1 = t "<Leaf tree.branch.leaf>" ∧
    (read (run (t "Leaf") noParts leaf [.rename 2 (some (t "bush"))]) 0).1 = some (t "bush.branch.leaf") ∧
    (read (run (t "Leaf") noParts leaf [.read 0, .rename 2 (some (t "bush"))]) 0).1 = some (t "tree.branch.leaf") ∧
    (read (run (t "Leaf") noParts leaf [.read 0, .rename 2 (some (t "bush")), .rename 0 (some (t "twig"))]) 0).1 =
      some (t "bush.branch.twig") ∧
    (text (t "Leaf") noParts (run (t "Leaf") noParts leaf [.text 0, .rename 1 none]) 0).1 =
      t "<Leaf tree.branch.leaf>" := by
  refine ⟨?_, Nat.zero_le _, (by simp [Elsewhere]), by decide +kernel, by decide +kernel, by decide +kernel, by decide +kernel,
    by decide +kernel, by decide +kernel⟩
  intro x hx
  simp only [leaf, List.mem_cons, List.not_mem_nil, or_false] at hx
  rcases hx with rfl | rfl | rfl <;> exact ⟨rfl, rfl, rfl, rfl⟩

end Verif.Labels
