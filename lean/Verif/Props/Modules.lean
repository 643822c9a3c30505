import Verif.Spec.Modules
/-
C365.
-/
namespace Verif.Modules
open Modules.Spec

theorem register_sub (fs : Files) (l : Loader) (m name : Str) : (register fs l m name).sub = l.sub := by
  simp only [register]
  generalize fs.folder m (if name.isEmpty then l.sub else name) = f
  split <;> rfl

theorem register_twice (fs : Files) (l : Loader) (m : Str) :
    register fs (register fs l m []) m [] = register fs l m [] := by
  by_cases h : fs.isThere (fs.folder m l.sub) = true
  · have hf : ∀ x, folders ⟨l.sub, AList.set l.reg m x⟩ m = x := by
      intro x; simp [folders, AList.get?_set]
    have hs : ∀ x : List Str, AList.set (AList.set l.reg m x) m x = AList.set l.reg m x := by
      intro x
      have : ∀ r : AList Str (List Str), AList.set (AList.set r m x) m x = AList.set r m x := by
        intro r
        induction r with
        | nil => simp [AList.set]
        | cons p r ih =>
          obtain ⟨k, v⟩ := p
          by_cases hk : k = m
          · simp [AList.set, hk]
          · simp [AList.set, hk, ih]
      exact this _
    by_cases hm : fs.folder m l.sub ∈ folders l m
    · simp [register, h, hm, hf, hs]
    · simp [register, h, hm, hf, hs]
  · simp [register, h]

/-- What registering with the loaders `is` does to each. -/
theorem all_get (fs : Files) (m : Str) (is : List Nat) : ∀ (w : World) (i : Nat),
    (is.foldl (fun w i => registerAt fs w i m []) w).loaders[i]?
      = if i ∈ is then w.loaders[i]?.map (fun l => register fs l m []) else w.loaders[i]? := by
  induction is with
  | nil => intro w i; simp
  | cons j is ih =>
    intro w i
    simp only [List.foldl_cons]
    rw [ih]
    simp only [registerAt, List.getElem?_modify, List.mem_cons]
    by_cases hij : j = i
    · subst hij
      simp only [if_true, true_or]
      split
      · cases w.loaders[j]? <;> simp [register_twice]
      · rfl
    · have : ¬ i = j := fun e => hij e.symm
      simp [hij, this]

theorem all_byName (fs : Files) (m : Str) (is : List Nat) : ∀ (w : World),
    (is.foldl (fun w i => registerAt fs w i m []) w).byName = w.byName := by
  induction is with
  | nil => intro w; rfl
  | cons j is ih => intro w; rw [List.foldl_cons, ih]; rfl

theorem module_get (fs : Files) (sl : Nat) (w : World) (m : Str) (i : Nat) :
    (registerModule fs sl w m).loaders[i]?
      = if i ∈ sl :: w.byName.map Prod.snd then w.loaders[i]?.map (fun l => register fs l m []) else w.loaders[i]? :=
  all_get fs m (sl :: w.byName.map Prod.snd) w i

/-- The registry has the latest loader of each name, and nothing else. -/
structure Good (w : World) : Prop where
  wf : AList.WF w.byName
  iff : ∀ (n : Str) (i : Nat), AList.get? w.byName n = some i ↔ ∃ l, l.sub = n ∧ Latest w i l

theorem latest_congr {w w' : World} (h : ∀ i : Nat, w'.loaders[i]?.map Loader.sub = w.loaders[i]?.map Loader.sub)
    (n : Str) (i : Nat) : (∃ l, l.sub = n ∧ Latest w' i l) ↔ ∃ l, l.sub = n ∧ Latest w i l := by
  have key : ∀ {w w' : World}, (∀ i : Nat, w'.loaders[i]?.map Loader.sub = w.loaders[i]?.map Loader.sub) →
      (∃ l, l.sub = n ∧ Latest w' i l) → ∃ l, l.sub = n ∧ Latest w i l := by
    rintro w w' h ⟨l, hl, h1, h2⟩
    have := h i
    rw [h1] at this
    obtain ⟨l', h1', e⟩ := Option.map_eq_some_iff.mp this.symm
    refine ⟨l', e.trans hl, h1', fun j k hk hij => ?_⟩
    have := h j
    rw [hk] at this
    obtain ⟨k', hk', e'⟩ := Option.map_eq_some_iff.mp this
    rw [← e', e]
    exact h2 j k' hk' hij
  exact ⟨key h, key (fun i => (h i).symm)⟩

theorem good_step (fs : Files) (sl : Nat) {w : World} (h : Good w) (op : Op) : Good (step fs sl w op) := by
  cases op with
  | create sub =>
    refine ⟨AList.wf_set h.wf _ _, fun n i => ?_⟩
    have old : ∀ (j : Nat) (k : Loader), w.loaders[j]? = some k → (w.loaders ++ [(⟨sub, []⟩ : Loader)])[j]? = some k := by
      intro j k hk
      rw [List.getElem?_append_left (List.getElem?_eq_some_iff.mp hk).1, hk]
    have new : ∀ (j : Nat) (k : Loader), (w.loaders ++ [(⟨sub, []⟩ : Loader)])[j]? = some k →
        w.loaders[j]? = some k ∨ j = w.loaders.length ∧ k = ⟨sub, []⟩ := by
      intro j k hk
      rw [List.getElem?_append] at hk
      split at hk
      · exact .inl hk
      next hge =>
        obtain ⟨hi, he⟩ := List.getElem?_eq_some_iff.mp hk
        simp only [List.length_cons, List.length_nil] at hi
        refine .inr ⟨by omega, ?_⟩
        have : j - w.loaders.length = 0 := by omega
        simpa [this] using he.symm
    simp only [step, create, AList.get?_set]
    by_cases hn : n = sub
    · subst hn
      simp only [if_true, Option.some.injEq]
      constructor
      · rintro rfl
        refine ⟨⟨n, []⟩, rfl, by simp, fun j k hk hij => ?_⟩
        have := (List.getElem?_eq_some_iff.mp hk).1
        simp only [List.length_append, List.length_cons, List.length_nil] at this
        omega
      · rintro ⟨l, hl, h1, h2⟩
        rcases new i l h1 with h1' | ⟨rfl, -⟩
        · exact absurd hl.symm (h2 w.loaders.length ⟨n, []⟩ (by simp) (List.getElem?_eq_some_iff.mp h1').1)
        · rfl
    · have hn' : ¬ sub = n := fun e => hn e.symm
      simp only [hn, hn', if_false]
      rw [h.iff]
      constructor
      · rintro ⟨l, hl, h1, h2⟩
        refine ⟨l, hl, old i l h1, fun j k hk hij => ?_⟩
        rcases new j k hk with hk' | ⟨-, rfl⟩
        · exact h2 j k hk' hij
        · intro e; exact hn' (e.trans hl)
      · rintro ⟨l, hl, h1, h2⟩
        rcases new i l h1 with h1' | ⟨-, rfl⟩
        · exact ⟨l, hl, h1', fun j k hk hij => h2 j k (old j k hk) hij⟩
        · exact absurd hl hn'
  | register i m name =>
    refine ⟨h.wf, fun n j => ?_⟩
    rw [latest_congr (w := w)]
    · exact h.iff n j
    · intro j
      simp only [step, registerAt, List.getElem?_modify]
      cases w.loaders[j]? with
      | none => rfl
      | some l =>
        by_cases hij : i = j
        · simp [hij, register_sub]
        · simp [hij]
  | registerModule m =>
    have hb : (registerModule fs sl w m).byName = w.byName := all_byName fs m (sl :: w.byName.map Prod.snd) w
    refine ⟨by simp only [step, hb]; exact h.wf, fun n j => ?_⟩
    rw [latest_congr (w := w)]
    · simp only [step, hb]; exact h.iff n j
    · intro j
      simp only [step, module_get]
      split
      · cases w.loaders[j]? <;> simp [register_sub]
      · rfl

theorem good_run (fs : Files) (sl : Nat) (ops : List Op) : Good (run fs sl ops) := by
  have key : ∀ (ops : List Op) (w : World), Good w → Good (ops.foldl (step fs sl) w) := by
    intro ops
    induction ops with
    | nil => exact fun w h => h
    | cons op ops ih => exact fun w h => ih _ (good_step fs sl h op)
  refine key ops start ⟨by simp [start, AList.WF, AList.keys], fun n i => ?_⟩
  simp [start, AList.get?, Latest]

/-- Whatever was made and registered before: once a module is registered, the latest loader of each name has the folder of
the module that has this name, if there is one, after those it had; what it had for other modules is as it was. -/
theorem C365_latest_partial (fs : Files) (sl : Nat) (ops : List Op) (m : Str) (i : Nat) (l : Loader)
    (hl : Latest (run fs sl ops) i l) :
    ∃ l', (registerModule fs sl (run fs sl ops) m).loaders[i]? = some l' ∧ l'.sub = l.sub
      ∧ (fs.isThere (fs.folder m l.sub) = true → fs.folder m l.sub ∈ folders l' m)
      ∧ (fs.isThere (fs.folder m l.sub) = false → l' = l)
      ∧ folders l m <+: folders l' m ∧ ∀ m', m' ≠ m → folders l' m' = folders l m' := by
  have hg := good_run fs sl ops
  have hmem : i ∈ sl :: (run fs sl ops).byName.map Prod.snd := by
    have := (hg.iff l.sub i).mpr ⟨l, rfl, hl⟩
    exact List.mem_cons_of_mem _ (List.mem_map.mpr ⟨_, AList.mem_of_get? this, rfl⟩)
  refine ⟨register fs l m [], ?_, register_sub .., ?_, ?_, ?_, ?_⟩
  · rw [module_get, if_pos hmem, hl.1]; rfl
  · intro h
    simp only [register, List.isEmpty_nil, if_true, h]
    by_cases hf : fs.folder m l.sub ∈ folders l m <;> simp [folders, AList.get?_set] at hf ⊢ <;> simp [hf]
  · intro h
    simp [register, h]
  · simp only [register, List.isEmpty_nil, if_true]
    split
    · by_cases hf : fs.folder m l.sub ∈ folders l m
      · simp only [folders] at hf
        simp [folders, AList.get?_set, hf]
      · simp only [folders] at hf
        simp [folders, AList.get?_set, hf]
    · exact List.prefix_refl _
  · intro m' hm'
    simp only [register, List.isEmpty_nil, if_true]
    split
    · have : ¬ m = m' := fun e => hm' e.symm
      simp [folders, AList.get?_set, hm', this]
    · rfl

/-- A loader is not registered with when another was made later for folders of the same name (unless it is the loader of
schemas). -/
theorem C365_same_violated (fs : Files) (sl : Nat) (ops : List Op) (m : Str) (i j : Nat) (l k : Loader)
    (hi : (run fs sl ops).loaders[i]? = some l) (hj : (run fs sl ops).loaders[j]? = some k) (hij : i < j)
    (hs : k.sub = l.sub) (hsl : i ≠ sl) : (registerModule fs sl (run fs sl ops) m).loaders[i]? = some l := by
  have hg := good_run fs sl ops
  rw [module_get, if_neg, hi]
  intro hm
  rcases List.mem_cons.mp hm with e | hm
  · exact hsl e
  · obtain ⟨⟨n, i'⟩, hp, rfl⟩ := List.mem_map.mp hm
    have := AList.get?_of_mem hg.wf hp
    obtain ⟨l', hl', h1, h2⟩ := (hg.iff n i').mp this
    rw [show (run fs sl ops).loaders[i']? = some l from hi] at h1
    cases h1
    exact h2 j k hj hij hs

/-- Two modules, of which only `m` has folders `t`, and `s` everywhere. -/
def files : Files := ⟨fun m n => m ++ '/' :: n, fun p => p ∈ [['m', '/', 't'], ['m', '/', 's'], ['n', '/', 's']]⟩

/-- The loader of schemas has the folder of a module that is registered, even if another was made for folders of the same
name. -/
theorem C365_schemas_partial (fs : Files) (sl : Nat) (ops : List Op) (m : Str) (l : Loader)
    (hl : (run fs sl ops).loaders[sl]? = some l) (h : fs.isThere (fs.folder m l.sub) = true) :
    ∃ l', (registerModule fs sl (run fs sl ops) m).loaders[sl]? = some l' ∧ fs.folder m l.sub ∈ folders l' m := by
  refine ⟨register fs l m [], ?_, ?_⟩
  · rw [module_get, if_pos List.mem_cons_self, hl]; rfl
  · simp only [register, List.isEmpty_nil, if_true, h]
    by_cases hf : fs.folder m l.sub ∈ folders l m <;> simp [folders, AList.get?_set] at hf ⊢ <;> simp [hf]

example : (registerModule files 0 (run files 0 [.create ['s'], .create ['s']]) ['n']).loaders
    = [⟨['s'], [(['n'], [['n', '/', 's']])]⟩, ⟨['s'], [(['n'], [['n', '/', 's']])]⟩] := by decide +kernel

/-- Registering a module again changes nothing. -/
theorem C365_again (fs : Files) (sl : Nat) (ops : List Op) (m : Str) :
    registerModule fs sl (registerModule fs sl (run fs sl ops) m) m = registerModule fs sl (run fs sl ops) m := by
  have hb : ∀ w, (registerModule fs sl w m).byName = w.byName :=
    fun w => all_byName fs m (sl :: w.byName.map Prod.snd) w
  have hl : (registerModule fs sl (registerModule fs sl (run fs sl ops) m) m).loaders
      = (registerModule fs sl (run fs sl ops) m).loaders := by
    apply List.ext_getElem?
    intro i
    rw [module_get, hb, module_get]
    split
    · cases (run fs sl ops).loaders[i]? <;> simp [register_twice]
    · rfl
  have e : ∀ a b : World, a.loaders = b.loaders → a.byName = b.byName → a = b := by
    rintro ⟨_, _⟩ ⟨_, _⟩ rfl rfl; rfl
  exact e _ _ hl (by rw [hb, hb])

/-- Loaders for `t`, `s`, and a second one for `t`. -/
def made : List Op := [.create ['t'], .create ['s'], .create ['t'], .register 0 ['m'] ['s']]

example : Latest (run files 1 made) 2 ⟨['t'], []⟩
    ∧ (registerModule files 1 (run files 1 made) ['m']).loaders
      = [⟨['t'], [(['m'], [['m', '/', 's']])]⟩, ⟨['s'], [(['m'], [['m', '/', 's']])]⟩, ⟨['t'], [(['m'], [['m', '/', 't']])]⟩]
    ∧ (registerModule files 1 (run files 1 made) ['n']).loaders
      = [⟨['t'], [(['m'], [['m', '/', 's']])]⟩, ⟨['s'], [(['n'], [['n', '/', 's']])]⟩, ⟨['t'], []⟩] := by
  refine ⟨⟨by decide +kernel, fun j k hk hj => ?_⟩, by decide +kernel, by decide +kernel⟩
  have := (List.getElem?_eq_some_iff.mp hk).1
  have hlen : (run files 1 made).loaders.length = 3 := by decide +kernel
  omega

end Verif.Modules
