import Verif.Lemmas.Literal
import Verif.Model.Types
/-
C161-C166: expressions and templates.
-/
namespace Verif.Literal
open Spec
open Keys.Spec (Literal)

/-- An environment for the examples: texts are looked up, rendering gives `7`. -/
def demo : Env where
  eval s := if s = "n".toList then .ok (.int (-4)) else if s = "b".toList then .ok (.bool true)
    else if s = "t".toList then .ok (.str "12".toList) else if s = "q".toList then .ok (.str "`n".toList)
    else .error .nameError
  render _ := .ok ['7']
  str v := match v with
    | .int i => showInt i
    | .bool true => "True".toList
    | .bool false => "False".toList
    | .str s => s
    | _ => []

/-! ### C161: an expression stands for its value, a template for its text -/

/-- An expression that gives a text. -/
theorem C161_text_partial (env : Env) (t : PyType) (s x : Str) (h : env.eval s = .ok (.str x)) :
    convert env t false (.str ('`' :: s)) = typeConv t (.str x) := by
  simp [convert, evalText, isExpr, h, typeConv, strType]

example : demo.eval "t".toList = .ok (.str "12".toList)
    ∧ convert demo intType false (.str "`t".toList) = .ok (.int 12) := by decide +kernel

/-- An expression that gives None. -/
theorem C161_none_partial (env : Env) (t : PyType) (s : Str) (h : env.eval s = .ok .none) :
    convert env t false (.str ('`' :: s)) = .ok .none := by
  simp [convert, evalText, isExpr, h, typeConv]

example : convert { demo with eval := fun _ => .ok .none } intType false (.str "`n".toList) = .ok .none := by
  decide +kernel

/-- An expression that gives an integer, for an integer. -/
theorem C161_integer_partial (env : Env) (s : Str) (i : Int) (h : env.eval s = .ok (.int i))
    (hs : env.str (.int i) = showInt i) : convert env intType false (.str ('`' :: s)) = .ok (.int i) := by
  simp [convert, evalText, isExpr, h, typeConv, strType, hs, intType, parseInt_showInt]

example : demo.eval "n".toList = .ok (.int (-4)) ∧ demo.str (.int (-4)) = showInt (-4)
    ∧ convert demo intType false (.str "`n".toList) = .ok (.int (-4)) := by decide +kernel

/-- An expression that gives anything but a text or None, for a text: it is written. -/
theorem C161_string_partial (env : Env) (s : Str) (r : Val) (h : env.eval s = .ok r) (hn : r ≠ .none)
    (hr : ∀ x, r ≠ .str x) : convert env (strType env) false (.str ('`' :: s)) = .ok (.str (env.str r)) := by
  have : (strType env).inst r = false := by
    cases r <;> simp_all [strType]
  have e : typeConv (strType env) r = .ok (.str (env.str r)) := by
    simp only [typeConv, hn, this]; simp [strType]
  simp [convert, evalText, isExpr, h, e]
  simp [typeConv, strType]

example : convert demo (strType demo) false (.str "`n".toList) = .ok (.str "-4".toList) := by decide +kernel

/-- A template. -/
theorem C161_template_partial (env : Env) (t : PyType) (s r : Str) (he : s.head? ≠ some '`')
    (hp : ['{', '{'] <:+: s ∨ ['{', '%'] <:+: s) (h : env.render s = .ok r) :
    convert env t false (.str s) = typeConv t (.str r) := by
  have hs : s ≠ [] := by rintro rfl; simp at hp
  have hp' : isPattern (.str s) = true := by
    simp only [isPattern, Bool.or_eq_true, Keys.isInfix_iff]; exact hp
  simp [convert, evalText, hs, isExpr, he, hp', h]

example : convert demo intType false (.str "{{ x }}".toList) = .ok (.int 7) := by decide +kernel

/-- Numbers, and with them true and false, are integers as they are, and None stays None; lists and mappings are refused. -/
theorem C161_plain_partial (env : Env) (raw : Bool) (v : Val) :
    (∀ i, convert env intType raw (.int i) = .ok (.int i)) ∧ (∀ b, convert env intType raw (.bool b) = .ok (.bool b)) ∧
    convert env intType raw .none = .ok .none ∧
    (((∃ l, v = .list l) ∨ ∃ d, v = .dict d) → convert env intType false v = .error .conversionError) := by
  refine ⟨fun i => by cases raw <;> simp [convert, typeConv, intType], fun b => by cases raw <;> simp [convert, typeConv, intType],
    by cases raw <;> simp [convert, typeConv], ?_⟩
  rintro (⟨l, rfl⟩ | ⟨d, rfl⟩) <;> simp [convert, typeConv, intType]

example : convert demo intType false (.int 5) = .ok (.int 5) ∧ convert demo intType false (.list []) = .error .conversionError := by
  decide +kernel

/-- An expression that gives true is no integer, although true is one. -/
theorem C161_bool_violated : convert demo intType false (.bool true) = .ok (.bool true)
    ∧ demo.eval "b".toList = .ok (.bool true)
    ∧ convert demo intType false (.str "`b".toList) = .error .conversionError := by decide +kernel

/-- Booleans do not evaluate: an expression is refused, whatever it stands for. -/
theorem C161_boolean_violated (lower : Str → Str) (trues falses : List Str) (s : Str)
    (ht : lower s ∉ trues) (hf : lower s ∉ falses) :
    Types.boolConvert lower trues falses (.str s) = .error .conversionError := by
  simp [Types.boolConvert, ht, hf]

example : Types.boolConvert id ["true".toList] ["false".toList] (.str "`true".toList) = .error .conversionError := by
  decide +kernel

/-! ### C162: an expression depends on its inputs only -/

/-- Word characters and the start of names, for the examples. -/
def wordEx (c : Char) : Bool := c.isAlphanum || c == '_' || c == 'é'

def startEx (c : Char) : Bool := c.isAlpha || c == '_' || c == 'é'

/-- An evaluation that looks up the name at the start of the text. -/
def lookup (c : Str → Option Val) (s : Str) : Res Val :=
  match s with
  | [] => .error .valueError
  | d :: _ => if startEx d then match c (s.takeWhile wordEx) with
      | some v => .ok v
      | none => .error .nameError
    else .error .valueError

theorem lookup_reads : OnlyReads startEx wordEx lookup := by
  intro s c c' h
  cases s with
  | nil => rfl
  | cons d s =>
    unfold lookup
    dsimp only
    split
    · rename_i hd
      have hwd : wordEx d = true := by
        simp only [startEx, wordEx, Char.isAlphanum, Bool.or_eq_true] at *
        rcases hd with (hd | hd) | hd
        · exact .inl (.inl (.inl hd))
        · exact .inl (.inr hd)
        · exact .inr hd
      have hr : Reads startEx wordEx (d :: s) ((d :: s).takeWhile wordEx) := by
        refine ⟨[], (d :: s).dropWhile wordEx, (List.takeWhile_append_dropWhile (p := wordEx)).symm,
          ⟨d, s.takeWhile wordEx, by simp [hwd], hd⟩, fun x hx => ?_, by simp, fun x hx => ?_⟩
        · exact List.all_eq_true.1 List.all_takeWhile x hx
        · have := List.head?_dropWhile_not wordEx (d :: s)
          rw [hx] at this
          simpa using this
      rw [h _ hr]
    · rfl

/-- Two contexts in which the first components of the inputs and the builtins mean the same give an expression without
template marks the same value, if its names start with an ASCII letter or an underscore. -/
theorem C162_expression_partial (start word : Char → Bool) (builtins : List Str) (lex : Str → Res (List Tok))
    (ev : (Str → Option Val) → Str → Res Val) (hev : OnlyReads start word ev)
    (hw : ∀ c, ascii c = true → word c = true) (hd : word '.' = false) (hq : word '`' = false)
    (hbd : ∀ n ∈ builtins, '.' ∉ n) (s : Str)
    (hp : ¬ ['{', '{'] <:+: s ∧ ¬ ['{', '%'] <:+: s)
    (hs : ∀ n, Reads start word s n → ∃ c n', n = c :: n' ∧ ascii c = true) :
    ∃ ins, inputs word builtins lex false (.str ('`' :: s)) = .ok ins
      ∧ ∀ c c', (∀ m ∈ ins, c (first m) = c' (first m)) → (∀ n ∈ builtins, c n = c' n) → ev c s = ev c' s := by
  have hp' : isPattern (.str ('`' :: s)) = false := by
    have h1 : ¬ ['{', '{'] <:+: '`' :: s := by
      rw [List.infix_cons_iff]; rintro (h | h)
      · simp at h
      · exact hp.1 h
    have h2 : ¬ ['{', '%'] <:+: '`' :: s := by
      rw [List.infix_cons_iff]; rintro (h | h)
      · simp at h
      · exact hp.2 h
    cases e : isPattern (.str ('`' :: s)) with
    | false => rfl
    | true => simp only [isPattern, Bool.or_eq_true, Keys.isInfix_iff] at e; exact absurd e (not_or.2 ⟨h1, h2⟩)
  refine ⟨exprInputs word builtins ('`' :: s), by simp [inputs, hp', isExpr], ?_⟩
  intro c c' hin hb
  refine hev s c c' fun n hn => ?_
  obtain ⟨d, n', e, hdn⟩ := hs n hn
  have hr : Reads nameStart word ('`' :: s) n := by
    obtain ⟨a, b, h1, _, h3, h4, h5⟩ := hn
    refine ⟨'`' :: a, b, by rw [h1]; simp, ⟨d, n', e, by rw [nameStart_ascii]; exact hdn⟩, h3, ?_, h5⟩
    intro x hx
    rcases List.eq_nil_or_concat a with rfl | ⟨a', y, rfl⟩
    · simp at hx; subst hx; exact ⟨hq, by decide⟩
    · refine h4 x ?_
      rw [List.concat_eq_append, ← List.cons_append, List.getLast?_append] at hx
      simpa using hx
  obtain ⟨m, hm, e2⟩ := findAll_reads word (fun c hc => hw c (by rw [← nameStart_ascii]; exact hc)) hd _ n hr
  by_cases hmb : m ∈ builtins
  · have : first m = m := by
      have h : ∀ x ∈ m, (x != '.') = true := by
        intro x hx
        simp only [bne_iff_ne, ne_eq]
        rintro rfl
        exact hbd m hmb hx
      have := List.takeWhile_append_of_pos (l₂ := []) h
      simpa [first] using this
    rw [← e2, this]
    exact hb m hmb
  · rw [← e2]
    exact hin m (by simp [exprInputs, hm, hmb])

/-- For the expression `a.b + len(c)` with the builtin `len`, the inputs are `a.b` and `c`. -/
example : (∀ c, ascii c = true → wordEx c = true) ∧ wordEx '.' = false ∧ wordEx '`' = false
    ∧ OnlyReads startEx wordEx lookup
    ∧ inputs wordEx ["len".toList] (fun _ => .error .valueError) false (.str "`a.b + len(c)".toList)
      = .ok ["a.b".toList, "c".toList]
    ∧ lookup (fun _ => some (.int 3)) "a.b + len(c)".toList = .ok (.int 3) := by
  refine ⟨?_, by decide +kernel, by decide +kernel, lookup_reads, by decide +kernel, by decide +kernel⟩
  intro c hc
  simp only [ascii, wordEx, Char.isAlphanum, Bool.or_eq_true] at *
  rcases hc with hc | hc
  · exact .inl (.inl (.inl hc))
  · exact .inl (.inr hc)

/-- The inputs of an expression are parts of it, and no builtins. -/
theorem C162_sound_partial (word : Char → Bool) (builtins : List Str) (lex : Str → Res (List Tok)) (s : Str)
    (hp : ¬ ['{', '{'] <:+: s ∧ ¬ ['{', '%'] <:+: s) (ins : List Str)
    (h : inputs word builtins lex false (.str s) = .ok ins) : ∀ m ∈ ins, m <:+: s ∧ m ∉ builtins := by
  have hp' : isPattern (.str s) = false := by
    cases e : isPattern (.str s) with
    | false => rfl
    | true => simp only [isPattern, Bool.or_eq_true, Keys.isInfix_iff] at e; exact absurd e (not_or.2 hp)
  simp only [inputs, hp'] at h
  intro m hm
  cases e : isExpr (.str s) with
  | false => simp [e] at h; subst h; simp at hm
  | true =>
    simp only [e, if_true, Except.ok.injEq, exprInputs] at h
    simp only [Bool.false_eq_true, if_false, Except.ok.injEq] at h
    subst h
    rw [List.mem_filter] at hm
    have := findAll_infix word s none m hm.1
    exact ⟨by simpa using this, by simpa using hm.2⟩

/-- A property named as a builtin is no input, although the expression gives its value. -/
theorem C162_builtin_violated : inputs wordEx ["id".toList] (fun _ => .error .valueError) false (.str "`id".toList) = .ok []
    ∧ ∃ c c' : Str → Option Val, OnlyReads startEx wordEx lookup
      ∧ lookup c "id".toList ≠ lookup c' "id".toList :=
  ⟨by decide +kernel, fun _ => some (.int 1), fun _ => some (.int 2), lookup_reads, by decide +kernel⟩

/-- Nor is a name that starts with another letter. -/
theorem C162_letter_violated : inputs wordEx [] (fun _ => .error .valueError) false (.str "`é".toList) = .ok []
    ∧ ∃ c c' : Str → Option Val, OnlyReads startEx wordEx lookup
      ∧ lookup c "é".toList ≠ lookup c' "é".toList :=
  ⟨by decide +kernel, fun _ => some (.int 1), fun _ => some (.int 2), lookup_reads, by decide +kernel⟩

/-- An expression with template marks is evaluated, but has the inputs of the template. -/
theorem C162_template_violated (lex : Str → Res (List Tok))
    (h : lex "`a+'{{b}}'".toList = .ok [.other "`a+'".toList, .varBegin, .name ['b'], .varEnd, .other ['\'']]) :
    inputs wordEx [] lex false (.str "`a+'{{b}}'".toList) = .ok [['b']]
    ∧ ∃ c c' : Str → Option Val, OnlyReads startEx wordEx lookup ∧ c ['b'] = c' ['b']
      ∧ lookup c "a+'{{b}}'".toList ≠ lookup c' "a+'{{b}}'".toList := by
  refine ⟨?_, fun n => if n = ['a'] then some (.int 1) else none, fun _ => none, lookup_reads, by decide +kernel,
    by decide +kernel⟩
  have hp : isPattern (.str "`a+'{{b}}'".toList) = true := by decide +kernel
  simp only [inputs, hp, h]
  decide +kernel

/-! ### C163: the inputs of a template are the variables it reads -/

/-- A template whose variables are paths of names and item numbers, that may be filtered. -/
theorem C163_template_partial (ps : List Piece) (h : Piece.Ok ps) :
    variables (Piece.toks ps) = .ok (Piece.reads ps) := by
  have key : ∃ vs, scan none (Piece.toks ps) = .ok vs ∧ vs.map unThis = Piece.reads ps := by
    induction ps with
    | nil => exact ⟨[], rfl, rfl⟩
    | cons p ps ih =>
      cases p with
      | out t =>
        obtain ⟨vs, h1, h2⟩ := ih h.2
        refine ⟨vs, ?_, h2⟩
        rw [← h1]
        exact scan_out [t] _ (by simpa using Ne.symm h.1)
      | var o n path fs =>
        obtain ⟨⟨hn, hp⟩, ⟨ht, hs⟩, hf, hok⟩ := h
        obtain ⟨vs, h1, h2⟩ := ih hok
        refine ⟨(ownerText o ++ (n ++ Member.path path)) :: vs, ?_, ?_⟩
        · cases fs with
          | none =>
            simp only [Piece.toks]
            rw [scan_var o n path _ _ (.inl rfl) hn hp, h1]
          | some l =>
            have e : Piece.toks (.var o n path (some l) :: ps)
                = .varBegin :: (o.toks ++ .name n :: Member.toks path) ++ .pipe :: ((l ++ [.varEnd]) ++ Piece.toks ps) := by
              simp [Piece.toks]
            rw [e, scan_var o n path _ _ (.inr rfl) hn hp, scan_out _ _ (by simpa using hf l rfl), h1]
        · simp [Piece.reads, unThis_owner o _ ht hs, h2]
  obtain ⟨vs, h1, h2⟩ := key
  simp [variables, h1, h2]

/-- `Hello {{ this.a.b }}, {{ c.0.d | upper }}`. -/
def templateEx : List Piece :=
  [.out (.other "Hello ".toList), .var .this ['a'] [.name ['b']] none, .out (.other ", ".toList),
    .var .none ['c'] [.item 0, .name ['d']] (some [.name "upper".toList])]

example : Piece.Ok templateEx ∧ variables (Piece.toks templateEx) = .ok ["a.b".toList, "c[0].d".toList] := by
  have h : ∀ s t : Str, Query.isInfix s t = false → ¬ s <:+: t := fun s t h hi => by
    rw [(Keys.isInfix_iff s t).2 hi] at h; simp at h
  refine ⟨⟨by simp, ⟨by decide, ?_⟩, ⟨h _ _ (by decide +kernel), h _ _ (by decide +kernel)⟩, by simp, by simp,
    ⟨by decide, ?_⟩, ⟨h _ _ (by decide +kernel), h _ _ (by decide +kernel)⟩, by simp, trivial⟩,
    by decide +kernel⟩ <;> (intro s hs; simp at hs; subst hs; decide)

/-- `{% if a %}`: what blocks read is no input. -/
theorem C163_block_violated : variables [.other "{%".toList, .name "if".toList, .name ['a'], .other "%}".toList] = .ok [] := by
  decide +kernel

/-- `{{ a + b }}` has one input, that is no name. -/
theorem C163_operator_violated : variables [.varBegin, .name ['a'], .other ['+'], .name ['b'], .varEnd] = .ok ["a+b".toList] := by
  decide +kernel

/-- `{{ a[0] }}` and `{{ a + 1 }}`: the inputs cannot be computed. -/
theorem C163_number_violated :
    variables [.varBegin, .name ['a'], .other ['['], .int 0, .other [']'], .varEnd] = .error .typeError
    ∧ variables [.varBegin, .name ['a'], .other ['+'], .int 1, .varEnd] = .error .typeError
    ∧ variables [.varBegin, .int 1, .varEnd] = .error .indexError := by
  decide +kernel

/-- `{{ myself.name }}` has the input `myname`. -/
theorem C163_self_violated : variables (Piece.toks [.var .none "myself".toList [.name "name".toList] none]) = .ok ["myname".toList] := by
  decide +kernel

/-- `this.` is removed from templates, not from expressions. -/
theorem C163_this_violated : variables (Piece.toks [.var .this ['a'] [] none]) = .ok [['a']]
    ∧ inputs wordEx [] (fun _ => .error .valueError) false (.str "`this.a".toList) = .ok ["this.a".toList] := by
  decide +kernel

/-! ### C164: an evaluation that fails is reported -/

/-- It is if the type refuses the text. -/
theorem C164_refused_partial (env : Env) (t : PyType) (s : Str) (e e' : Exc) (h : env.eval s = .error e)
    (hi : t.inst (.str ('`' :: s)) = false) (hm : t.make (.str ('`' :: s)) = .error e') :
    convert env t false (.str ('`' :: s)) = .error .conversionError := by
  simp [convert, evalText, isExpr, h, typeConv, hi, hm]

example : demo.eval "zz".toList = .error .nameError ∧ intType.inst (.str "`zz".toList) = false
    ∧ convert demo intType false (.str "`zz".toList) = .error .conversionError := by decide +kernel

/-- A text keeps the expression instead. -/
theorem C164_text_violated (env : Env) (s : Str) (e : Exc) (h : env.eval s = .error e) :
    convert env (strType env) false (.str ('`' :: s)) = .ok (.str ('`' :: s)) := by
  simp [convert, evalText, isExpr, h, typeConv, strType]

example : convert demo (strType demo) false (.str "`zz".toList) = .ok (.str "`zz".toList) := by decide +kernel

/-! ### C165: converting twice is converting once -/

/-- If the result is no expression and no template, and the type makes instances of it. -/
theorem C165_literal_partial (env : Env) (t : PyType) (v w : Val) (ht : ∀ v w, t.make v = .ok w → t.inst w = true)
    (h : convert env t false v = .ok w) (hw : Literal w) : convert env t false w = .ok w := by
  have hres : ∀ x, typeConv t x = .ok w → typeConv t w = .ok w := by
    intro x hx
    unfold typeConv at hx
    split at hx
    · cases hx; rfl
    · split at hx
      · cases hx; simp [typeConv, *]
      · cases hm : t.make x with
        | error e => simp [hm] at hx
        | ok y =>
          simp only [hm, Except.ok.injEq] at hx
          subst hx
          simp only [typeConv, ht x y hm, if_true]
          split <;> simp_all
  have hc : typeConv t w = .ok w := by
    unfold convert at h
    simp only [Bool.false_eq_true, if_false] at h
    split at h
    · split at h
      · exact hres _ h
      · split at h <;> exact hres _ h
    · exact hres _ h
  cases w with
  | str s =>
    obtain ⟨h1, h2, h3⟩ := hw
    have hp : isPattern (.str s) = false := by
      cases e : isPattern (.str s) with
      | false => rfl
      | true => simp only [isPattern, Bool.or_eq_true, Keys.isInfix_iff] at e; exact absurd e (not_or.2 ⟨h2, h3⟩)
    have he : evalText env (.str s) s = .ok (.str s) := by simp [evalText, isExpr, h1, hp]
    simp only [convert, he]
    simp [hc]
  | _ => exact hc

example : (∀ v w, intType.make v = .ok w → intType.inst w = true)
    ∧ convert demo intType false (.str "`n".toList) = .ok (.int (-4)) := by
  refine ⟨?_, by decide +kernel⟩
  intro v w h
  cases v <;> simp [intType] at h
  split at h
  · cases h; rfl
  · simp at h

/-- An expression that gives an expression. -/
theorem C165_expression_violated : convert demo (strType demo) false (.str "`q".toList) = .ok (.str "`n".toList)
    ∧ convert demo (strType demo) false (.str "`n".toList) = .ok (.str "-4".toList) := by decide +kernel

/-! ### C166: raw literals are not evaluated, but converted -/

/-- Values of the type are left as they are, and have no inputs. -/
theorem C166_instance_partial (env : Env) (word : Char → Bool) (builtins : List Str) (lex : Str → Res (List Tok))
    (t : PyType) (v : Val) (h : typeConv t v = .ok v) :
    convert env t true v = typeConv t v ∧ inputs word builtins lex true v = .ok [] := by
  refine ⟨by simp [convert, h], ?_⟩
  cases v <;> simp [inputs]

example : typeConv (strType demo) (.str "`n".toList) = .ok (.str "`n".toList)
    ∧ convert demo (strType demo) true (.str "`n".toList) = .ok (.str "`n".toList) := by decide +kernel

/-- Other values are not converted. -/
theorem C166_convert_violated : typeConv intType (.str "12".toList) = .ok (.int 12)
    ∧ convert demo intType true (.str "12".toList) = .ok (.str "12".toList) := by decide +kernel

end Verif.Literal
