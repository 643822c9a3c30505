import Verif.Lemmas.Qualnames
/-
C343: the qualified name of a class or function without one of its own is the path of the definitions around it in its
source.
-/
namespace Verif.Qualnames

theorem pick_ok {t : AList Nat Str} {m : Nat} {q : Str} : pick t m = .ok q ↔ AList.get? t m = some q := by
  unfold pick
  cases AList.get? t m <;> simp

theorem qualname_fresh {cache : AList Str (AList Nat Str)} {disk : AList Str Source} {file : Str} {s : Source}
    (hc : AList.get? cache file = none) (hd : AList.get? disk file = some s) (hn : (table s).2 = none) (m : Nat) :
    qualname cache disk none file m = (pick (table s).1 m, AList.set cache file (table s).1) := by
  unfold qualname
  simp only [hc, hd]
  split
  · rename_i h; rw [h] at hn; simp at hn
  · rename_i h; rw [h]

/-- In a file not read before, coroutines aside: the name of what is defined in a line, or after the decorators starting
there, is the dotted path of the definitions around it, with `<locals>` after functions. What is given is such a name,
and where nothing is defined there is an AttributeError. (A name of its own is given as it is.) -/
theorem C343_names_partial (cache : AList Str (AList Nat Str)) (disk : AList Str Source) (file : Str) (s : Source)
    (hc : AList.get? cache file = none) (hd : AList.get? disk file = some s)
    (he : ∀ p i, At false s.tree p i → Ends s.lines i) (m : Nat) :
    (∀ p i, At false s.tree p i → Covers s.lines i m →
      (∀ p' i', At false s.tree p' i' → Covers s.lines i' m → p' = p) →
      (qualname cache disk none file m).1 = .ok (dotted p)) ∧
    (∀ q, (qualname cache disk none file m).1 = .ok q →
      ∃ p i, At false s.tree p i ∧ Covers s.lines i m ∧ q = dotted p) ∧
    ((¬ ∃ p i, At false s.tree p i ∧ Covers s.lines i m) →
      (qualname cache disk none file m).1 = .error .attributeError) ∧
    (∀ q, qualname cache disk (some q) file m = (.ok q, cache)) := by
  have hn := table_ends s he
  rw [qualname_fresh hc hd hn]
  refine ⟨fun p i ha hcov hu => ?_, fun q hq => ?_, fun h => ?_, fun q => rfl⟩
  · obtain ⟨q, hq⟩ := table_complete s hn p i m ha hcov
    obtain ⟨p', i', ha', hc', e⟩ := table_sound s m q hq
    rw [hu p' i' ha' hc'] at e
    exact pick_ok.2 (e ▸ hq)
  · exact table_sound s m q (pick_ok.1 hq)
  · show pick _ _ = _
    unfold pick
    cases hg : AList.get? (table s).1 m with
    | none => rfl
    | some q =>
      obtain ⟨p, i, h1, h2, _⟩ := table_sound s m q hg
      exact absurd ⟨p, i, h1, h2⟩ h

/-- Once a file was read, its names stay as they were, whatever it contains later. -/
theorem C343_changed_violated (cache : AList Str (AList Nat Str)) (disk disk' : AList Str Source) (file : Str)
    (s : Source) (hd : AList.get? disk file = some s) (he : ∀ p i, At false s.tree p i → Ends s.lines i) (m m' : Nat) :
    (qualname (qualname cache disk none file m).2 disk' none file m').1 = (qualname cache disk none file m').1 := by
  have hn := table_ends s he
  cases hc : AList.get? cache file with
  | some t =>
    have h : ∀ d x, qualname cache d none file x = (pick t x, cache) := by
      intro d x; unfold qualname; simp only [hc]
    rw [h, h, h]
  | none =>
    rw [qualname_fresh hc hd hn, qualname_fresh hc hd hn]
    unfold qualname
    simp only [AList.get?_set_self]

/-- A coroutine is not found, and is missing from the names of what is defined in it. -/
theorem C343_coroutines_violated (cache : AList Str (AList Nat Str)) (disk : AList Str Source) (file : Str)
    (n m : Str) (l l' : Nat) (lines : List Str) (hl : l < l')
    (hc : AList.get? cache file = none)
    (hd : AList.get? disk file = some ⟨.other [.coro n l [.func m l' []]], lines⟩) (he : Ends lines l') :
    At true (.other [.coro n l [.func m l' []]]) [n] l ∧
    At true (.other [.coro n l [.func m l' []]]) [n, "<locals>".toList, m] l' ∧
    (qualname cache disk none file l).1 = .error .attributeError ∧
    (qualname cache disk none file l').1 = .ok m := by
  have only : ∀ p i, At false (.other [.coro n l [.func m l' []]]) p i → p = [m] ∧ i = l' := by
    intro p i h
    cases h with
    | inOther ha h =>
      simp only [List.mem_singleton] at ha
      subst ha
      cases h with
      | coro h => simp at h
      | inCoro h => simp at h
      | pastCoro _ ha h =>
        simp only [List.mem_singleton] at ha
        subst ha
        cases h with
        | func => exact ⟨rfl, rfl⟩
        | inFunc ha _ => simp at ha
  have it : At false (.other [.coro n l [.func m l' []]]) [m] l' :=
    .inOther (List.mem_singleton.2 rfl) (.pastCoro rfl (List.mem_singleton.2 rfl) .func)
  have key := C343_names_partial cache disk file _ hc hd (fun p i h => by rw [(only p i h).2]; exact he)
  refine ⟨.inOther (List.mem_singleton.2 rfl) (.coro rfl),
    .inOther (List.mem_singleton.2 rfl) (.inCoro rfl (List.mem_singleton.2 rfl) .func), ?_, ?_⟩
  · refine (key l).2.2.1 ?_
    rintro ⟨p, i, h1, h2⟩
    have := (only p i h1).2
    have := h2.1
    omega
  · have := (key l').1 [m] l' it (covers_refl _ _) (fun p' i' h _ => (only p' i' h).1)
    simpa [dotted, joinWith] using this

/-- `class A:`, with a method with a decorator in which a function is defined, and a class with a decorator over two
lines. -/
def sample : Source where
  tree := .other [.cls "A".toList 1 [.func "f".toList 2 [.other [.func "g".toList 4 []]]], .cls "B".toList 5 []]
  lines := ["class A:".toList, "  @d".toList, "  def f(self):".toList, "    def g(): pass".toList,
    "@e(1,".toList, "   2)".toList, "class B: pass".toList]

example : (qualname [] [("a.py".toList, sample)] none "a.py".toList 3).1 = .ok "A.f".toList := by decide +kernel
example : (qualname [] [("a.py".toList, sample)] none "a.py".toList 4).1 = .ok "A.f.<locals>.g".toList := by
  decide +kernel
/-- The class is not found: its decorator takes two lines. -/
example : (qualname [] [("a.py".toList, sample)] none "a.py".toList 7).1 = .error .attributeError := by decide +kernel

/-- The hypotheses of the theorems hold for a decorated function. -/
example : ∀ p i, At false (.other [.func "f".toList 1 []]) p i → Ends ["@d".toList, "def f(): pass".toList] i := by
  intro p i h
  cases h with
  | inOther ha h =>
    simp only [List.mem_singleton] at ha
    subst ha
    cases h with
    | inFunc ha _ => simp at ha
    | func =>
      refine ⟨2, "def f(): pass".toList, ⟨by decide, fun x h1 h2 => ?_⟩, rfl, ?_⟩
      · have : x = 1 := by omega
        subst this
        exact ⟨"@d".toList, rfl, [], "d".toList, rfl, by simp⟩
      · rw [← decorates_iff]; decide +kernel

/-- After the file changed the old name is given. -/
example :
    (qualname (qualname [] [("a.py".toList, ⟨.func "f".toList 1 [], ["def f(): pass".toList]⟩)] none "a.py".toList 1).2
      [("a.py".toList, ⟨.func "g".toList 1 [], ["def g(): pass".toList]⟩)] none "a.py".toList 1).1
    = .ok "f".toList := by decide +kernel

end Verif.Qualnames
