import Verif.Props.RazorTranslate
import Verif.Spec.RazorParenSpec
/-!
# What the code of an expression does not contain
-/

namespace Verif.Lemmas
open Verif Spec Razor Prepare

/-- The code with the marks of the calls. -/
def mu (t : Text) : Text := t.flatMap fun c => if c = funcCall then Translate.callMark else sigma c

theorem mu_append (a b : Text) : mu (a ++ b) = mu a ++ mu b := by simp [mu]
theorem mu_cons (c : Char) (b : Text) : mu (c :: b) = (if c = funcCall then Translate.callMark else sigma c) ++ mu b := by simp [mu]

theorem mu_plain {t : Text} (h : ∀ c ∈ t, c ∉ [dotRep, globalRep, funcCall, dollarRep]) : mu t = t := by
  induction t with
  | nil => rfl
  | cons c t ih =>
    have hc := h c (List.mem_cons_self ..)
    rw [mu_cons, if_neg (fun e => hc (by simp [e])), sigma_plain hc, ih (fun x hx => h x (List.mem_cons_of_mem _ hx))]
    rfl

theorem mu_char {c : Char} (h : c ∉ [dotRep, globalRep, funcCall, dollarRep]) (b : Text) : mu (c :: b) = c :: mu b := by
  rw [mu_cons, if_neg (fun e => h (by simp [e])), sigma_plain h]
  rfl

theorem mu_slice (x : Text) : mu (T "slice " ++ x) = c!"slice" ++ ' ' :: mu x := mu_append _ x
theorem mu_sub (x : Text) : mu (T "sub 0 " ++ x) = c!"sub" ++ ' ' :: (c!"0" ++ ' ' :: mu x) := mu_append _ x

/-- The insertion gives the code with the marks of the calls. -/
theorem once_mu {L : Marked} (h : Tidy L) : flat (once L) = mu (short L) := by
  induction L with
  | nil => rfl
  | cons x L ih =>
    have ih := ih (tidy_tail h)
    unfold once at ih ⊢
    cases x with
    | inl c =>
      rw [opened_char, flat_char, short_char, mu_char (h.chars c (List.mem_cons_self ..)).2.2, ih]
    | inr i =>
      obtain ⟨hi, hi1⟩ := h.known i (List.mem_cons_self ..)
      rw [opened_mark, flat_append, short_mark, mu_append, ih]
      congr 1
      by_cases h10 : i = 10
      · subst h10
        decide
      · have o2 : opened (fun i => if i = 10 then none else some (onceOf i)) [.inr i] = (onceOf i).map .inl := by simp [opened, h10]
        rw [o2, flat_chars]
        exact ((by decide +kernel : ∀ i ∈ List.range 11, i ≠ 1 → i ≠ 10 → mu (charOf i) = onceOf i) i (List.mem_range.mpr hi) hi1 h10).symm

/-- A text that is not made by the translation; `g` is the text, or the text without its dot. -/
structure Foreign (f g : Text) : Prop where
  ne : g ≠ []
  same : (f = g ∧ '.' ∉ f) ∨ f = '.' :: g
  sep : ∀ c ∈ c!" ()-$", c ∉ f
  under : '_' ∉ f.tail
  dot : '.' ∉ f.tail
  op : ∀ p ∈ operators, ¬ f <:+: p.2
  words : ∀ w ∈ [c!"slice", c!"0", Translate.callMark], ¬ f <:+: w

/-- A character that is only the first one does not make a text that goes over it. -/
theorem infix_first {f a b : Text} {c : Char} (hc : c ∉ f.tail) (h : f <:+: a ++ c :: b) : f <:+: a ∨ f <:+: c :: b := by
  obtain ⟨s, t, h⟩ := h
  rw [List.append_assoc] at h
  rcases List.append_eq_append_iff.mp h with ⟨x, h1, h2⟩ | ⟨x, h1, h2⟩
  · rcases List.append_eq_append_iff.mp h2 with ⟨y, h3, h4⟩ | ⟨y, h3, h4⟩
    · exact .inl ⟨s, y, by rw [h1, h3]; simp⟩
    · cases y with
      | nil => exact .inl ⟨s, [], by rw [h1, h3]; simp⟩
      | cons z y =>
        simp only [List.cons_append, List.cons.injEq] at h4
        cases x with
        | nil => exact .inr ⟨[], t, by rw [h3, h4.2, h4.1]; simp⟩
        | cons d x => exact absurd (by rw [h3, h4.1]; simp) hc
  · exact .inr ⟨x, t, by rw [h2]; simp⟩

namespace Foreign

variable {f g : Text}

theorem nonempty (h : Foreign f g) : f ≠ [] := by
  rcases h.same with ⟨e, _⟩ | e <;> rw [e]
  · exact h.ne
  · simp

theorem part (h : Foreign f g) : g <:+: f := by
  rcases h.same with ⟨e, _⟩ | e <;> rw [e]
  · exact List.infix_refl _
  · exact (List.suffix_cons _ _).isInfix

theorem dotted (h : Foreign f g) {n : Text} (hn : ¬ g <:+: n) : ¬ f <:+: '.' :: n := by
  intro hi
  rcases List.infix_cons_iff.mp hi with hp | hi
  · rcases h.same with ⟨_, e⟩ | e
    · obtain ⟨d, w, hd⟩ := List.exists_cons_of_ne_nil h.nonempty
      rw [hd, List.cons_prefix_cons] at hp
      exact e (by rw [hd, hp.1]; simp)
    · rw [e, List.cons_prefix_cons] at hp
      exact hn hp.2.isInfix
  · exact hn (h.part.trans hi)

theorem over (h : Foreign f g) {c : Char} (hc : c ∈ c!" ()-$") {a b : Text} (ha : ¬ f <:+: a) (hb : ¬ f <:+: b) : ¬ f <:+: a ++ c :: b := fun hi =>
  (infix_sep (h.sep c hc) hi).elim ha hb

theorem behind (h : Foreign f g) {c : Char} (hc : c ∈ c!" ()-$") {b : Text} (hb : ¬ f <:+: b) : ¬ f <:+: c :: b := fun hi => hb (infix_behind (h.sep c hc) h.nonempty hi)

theorem blank (h : Foreign f g) : ¬ f <:+: [] := fun hi => h.nonempty (List.infix_nil.mp hi)

/-- In the parentheses of an operand. -/
theorem wrapped (h : Foreign f g) {t : Text} (ht : ¬ f <:+: mu t) : ¬ f <:+: mu (wrap t) := by
  unfold wrap
  split
  · exact ht
  · simp only
    split
    · exact ht
    · rw [mu_char (by decide), mu_append, mu_char (by decide)]
      exact h.behind (by decide) (h.over (by decide) ht h.blank)

theorem glob (h : Foreign f g) {n : Text} (hi : IsName n) (hn : ¬ g <:+: n) : ¬ f <:+: mu (identValue (.glob n)) := by
  rw [identValue_glob hi, mu_cons, mu_plain (fun c hc hm => hi.2.1 c hc (by simp at hm ⊢; simp [hm]))]
  exact h.behind (c := '$') (by decide) (h.dotted hn)

theorem trimmed (t : Text) (ht : ¬ f <:+: mu t) : ¬ f <:+: mu (Text.trimPrefix [globalRep] t) := by
  intro hi
  refine ht (hi.trans ?_)
  unfold Text.trimPrefix
  cases hd : Text.dropPrefix? [globalRep] t with
  | none => exact List.infix_refl _
  | some r =>
    have := Text.dropPrefix?_eq_some.mp hd
    rw [this, mu_append]
    exact (List.suffix_append _ _).isInfix

theorem called (h : Foreign f g) {t : Text} (ht : ¬ f <:+: mu t) : ¬ f <:+: mu ((if '.' ∈ t then t else Text.trimPrefix [globalRep] t) ++ [funcCall]) := by
  rw [mu_append]
  intro hi
  rcases infix_first (c := '_') h.under hi with hi | hi
  · split at hi
    · exact ht hi
    · exact trimmed t ht hi
  · exact h.words _ (by decide) hi

theorem joined (h : Foreign f g) {l : List Text} (hl : ∀ t ∈ l, ¬ f <:+: mu t) : ¬ f <:+: mu (Text.join [' '] l) := by
  induction l with
  | nil => exact h.blank
  | cons t l ih =>
    cases l with
    | nil => exact hl t (by simp)
    | cons u l =>
      have e : Text.join [' '] (t :: u :: l) = t ++ ' ' :: Text.join [' '] (u :: l) := by simp [Text.join]
      rw [e, mu_append, mu_char (by decide)]
      exact h.over (by decide) (hl t (by simp)) (ih fun t ht => hl t (List.mem_cons_of_mem _ ht))

theorem name (h : Foreign f g) {op w : Text} (ho : operatorName op = some w) : mu w = w ∧ ¬ f <:+: w := by
  have hm : (op, w) ∈ operators := by
    revert ho
    unfold operatorName
    generalize operators = l
    intro ho
    induction l with
    | nil => simp at ho
    | cons p l ih =>
      rw [List.lookup_cons] at ho
      split at ho
      · rename_i he
        rw [beq_iff_eq] at he
        cases ho
        rw [he]
        exact List.mem_cons_self ..
      · exact List.mem_cons_of_mem _ (ih ho)
  refine ⟨mu_plain fun c hc => ?_, h.op _ hm⟩
  exact (by decide +kernel : ∀ p ∈ operators, ∀ c ∈ p.2, c ∉ [dotRep, globalRep, funcCall, dollarRep]) _ hm c hc

theorem args (h : Foreign f g) {args : List Arg} (ha : ∀ a ∈ args, ∀ t, nodeValue a.expr = some t → ¬ f <:+: mu t) :
    ∀ l, nodeValues (args.map (·.expr)) = some l → ∀ t ∈ l, ¬ f <:+: mu t := by
  induction args with
  | nil =>
    intro l hl
    cases hl
    simp
  | cons a args ih =>
    intro l hl
    simp only [List.map_cons, nodeValues] at hl
    cases hv : nodeValue a.expr with
    | none => simp [hv] at hl
    | some v =>
      cases hr : nodeValues (args.map (·.expr)) with
      | none => simp [hv, hr] at hl
      | some r =>
        simp [hv, hr] at hl
        subst hl
        intro t ht
        rcases List.mem_cons.mp ht with rfl | ht
        · exact h.wrapped (ha a (by simp) v hv)
        · exact ih (fun a hm => ha a (List.mem_cons_of_mem _ hm)) r hr t ht

theorem call_args (h : Foreign f g) {args : List Arg} {t : Text} (ht : ¬ f <:+: mu t) (ha : ∀ a ∈ args, ∀ t, nodeValue a.expr = some t → ¬ f <:+: mu t)
    {e : Expr} (he : nodeValue e = some t) {r : Text} (hr : nodeValue (.call e (args.map (·.expr)) false) = some r) : ¬ f <:+: mu r := by
  simp only [nodeValue, he] at hr
  cases hl : nodeValues (args.map (·.expr)) with
  | none => simp [hl] at hr
  | some l =>
    simp only [hl, Option.bind_eq_bind, Option.bind_some] at hr
    split at hr
    · cases hr
      exact h.called ht
    · rw [if_neg (by decide)] at hr
      cases hr
      rw [mu_append, mu_char (by decide)]
      exact h.over (by decide) (h.called ht) (h.joined (h.args ha l hl))

end Foreign

theorem arg_part {args : List Arg} {a : Arg} (h : a ∈ args) : a.text <:+: Text.join [','] (args.map fun a => a.left ++ (a.text ++ a.right)) := by
  induction args with
  | nil => cases h
  | cons b l ih =>
    have hb : b.text <:+: b.left ++ (b.text ++ b.right) := ⟨b.left, b.right, by simp⟩
    cases l with
    | nil =>
      rw [List.mem_singleton] at h
      subst h
      exact hb
    | cons c l =>
      have e : Text.join [','] ((b :: c :: l).map fun a => a.left ++ (a.text ++ a.right)) =
          (b.left ++ (b.text ++ b.right)) ++ ',' :: Text.join [','] ((c :: l).map fun a => a.left ++ (a.text ++ a.right)) := by simp [Text.join]
      rw [e]
      rcases List.mem_cons.mp h with rfl | h
      · exact hb.trans (List.prefix_append _ _).isInfix
      · exact (ih h).trans ⟨b.left ++ (b.text ++ b.right) ++ [','], [], by simp⟩

theorem code_free {letter : Char → Bool} {f g : Text} (h : Foreign f g) {p : Nat} {s : Text} {e : Expr} (hs : ExprText letter p s e) :
    ¬ g <:+: s → ∀ t, nodeValue e = some t → ¬ f <:+: mu t := by
  have nof : ∀ {a : Text}, ¬ g <:+: a → ¬ f <:+: a := fun hn hi => hn (h.part.trans hi)
  induction hs with
  | «variable» i h1 h2 _ =>
    intro hn t ht
    simp only [nodeValue, Option.some.injEq] at ht
    subst ht
    have clean : ∀ {n : Text}, n = [] ∨ IsName n → ∀ c ∈ n, c ∉ [dotRep, globalRep, funcCall, dollarRep] := by
      rintro n (rfl | hi)
      · simp
      · exact fun c hc hm => hi.2.1 c hc (by simp at hm ⊢; simp [hm])
    cases i with
    | glob n => exact h.glob h2 hn
    | loc n =>
      have : identValue (.loc n) = dollarRep :: n := by simp [identValue, Ident.name, Text.hasPrefix, Text.dropPrefix?]
      rw [this, mu_cons, mu_plain (clean h2)]
      exact h.behind (c := '$') (by decide) (nof fun hi => hn (hi.trans (List.suffix_cons _ _).isInfix))
    | ctx n =>
      have : identValue (.ctx n) = dotRep :: n := by simp [identValue, Ident.name, Text.hasPrefix, Text.dropPrefix?]
      rw [this, mu_cons, mu_plain (clean h2)]
      exact h.dotted (fun hi => hn (hi.trans (List.suffix_cons _ _).isInfix))
  | @number d _ h2 =>
    intro hn t ht
    cases ht
    rw [mu_plain fun c hc hm => ?_]
    · exact nof hn
    · have := h2 c hc
      simp at hm
      rcases hm with rfl | rfl | rfl | rfl <;> revert this <;> decide
  | @quoted q body hq hb =>
    intro hn t ht
    cases ht
    rw [mu_plain fun c hc hm => ?_]
    · exact nof hn
    · simp only [List.mem_cons, List.mem_append, List.not_mem_nil, or_false] at hc
      have q' : c = q → False := by
        rintro rfl
        simp at hm
        rcases hq with rfl | rfl <;> revert hm <;> decide
      rcases hc with hc | hc | hc
      · exact q' hc
      · exact (hb c hc).2.2 hm
      · exact q' hc
  | @paren l s r e _ _ _ ih =>
    intro hn t ht
    exact ih (fun hi => hn (hi.trans ⟨'(' :: l, r ++ [')'], by simp⟩)) t ht
  | @call n args h1 h2 _ _ ih =>
    intro hn t ht
    refine h.call_args (e := .ident (.glob n)) (t := identValue (.glob n)) ?_ ?_ rfl ht
    · exact h.glob h2 (fun hi => hn (hi.trans (List.prefix_append _ _).isInfix))
    · intro a ha t ht
      refine ih a ha (fun hi => hn (hi.trans ((arg_part ha).trans ⟨n ++ ['('], [')'], by simp⟩))) t ht
  | @sel s e c n _ _ _ _ _ hi ih =>
    intro hn t ht
    simp only [nodeValue, sel_name hi] at ht
    cases hv : nodeValue e with
    | none => simp [hv] at ht
    | some v =>
      simp [hv] at ht
      subst ht
      rw [mu_append, mu_char (by decide), mu_plain (t := n) fun c hc hm => hi.2.1 c hc (by simp at hm ⊢; simp [hm])]
      intro hf
      rcases infix_first h.dot hf with hf | hf
      · exact h.wrapped (ih (fun hi => hn (hi.trans (List.prefix_append _ _).isInfix)) v hv) hf
      · exact h.dotted (fun hi => hn (hi.trans ⟨s ++ ['.'], [], by simp⟩)) hf
  | @method s e n args _ _ _ _ ih ih' =>
    intro hn t ht
    cases hv : nodeValue (.sel e n) with
    | none => rw [nodeValue, hv] at ht; simp at ht
    | some v =>
      refine h.call_args (e := .sel e n) (t := v) (ih (fun hi => hn (hi.trans (List.prefix_append _ _).isInfix)) v hv) ?_ hv ht
      intro a ha t ht
      exact ih' a ha (fun hi => hn (hi.trans ((arg_part ha).trans ⟨s ++ ['('], [')'], by simp⟩))) t ht
  | @index s e l t r i _ _ _ _ ih ih' =>
    intro hn x hx
    have n1 : ¬ g <:+: s := fun hi => hn (hi.trans (List.prefix_append _ _).isInfix)
    have n2 : ¬ g <:+: t := fun hi => hn (hi.trans ⟨s ++ '[' :: l, r ++ [']'], by simp⟩)
    simp only [nodeValue] at hx
    cases hv : nodeValue e with
    | none => simp [hv] at hx
    | some v =>
      cases hw : nodeValue i with
      | none => simp [hv, hw] at hx
      | some w =>
        simp only [hv, hw, Option.bind_eq_bind, Option.bind_some, Option.map_some, Option.some.injEq] at hx
        subst hx
        simp only [List.append_assoc]
        rw [mu_slice]
        simp only [mu_append, mu_char (show ' ' ∉ [dotRep, globalRep, funcCall, dollarRep] by decide)]
        exact h.over (by decide) (h.words _ (by decide)) (h.over (by decide) (h.wrapped (ih n1 v hv)) (h.wrapped (ih' n2 w hw)))
  | @slice s e l t r i l' t' r' j _ _ _ _ _ _ _ ih ih' ih'' =>
    intro hn x hx
    have n1 : ¬ g <:+: s := fun hi => hn (hi.trans (List.prefix_append _ _).isInfix)
    have n2 : ¬ g <:+: t := fun hi => hn (hi.trans ⟨s ++ '[' :: l, r ++ ':' :: (l' ++ (t' ++ (r' ++ [']']))), by simp⟩)
    have n3 : ¬ g <:+: t' := fun hi => hn (hi.trans ⟨s ++ '[' :: (l ++ (t ++ (r ++ ':' :: l'))), r' ++ [']'], by simp⟩)
    simp only [nodeValue] at hx
    cases hv : nodeValue e with
    | none => simp [hv] at hx
    | some v =>
      cases hw : nodeValue i with
      | none => simp [hv, hw] at hx
      | some w =>
        cases hu : nodeValue j with
        | none => simp [hv, hw, hu] at hx
        | some u =>
          simp only [hv, hw, hu, Option.bind_eq_bind, Option.bind_some, Option.map_some, Option.some.injEq] at hx
          subst hx
          simp only [List.append_assoc, List.cons_append]
          rw [mu_slice]
          simp only [mu_append, mu_char (show ' ' ∉ [dotRep, globalRep, funcCall, dollarRep] by decide)]
          exact h.over (by decide) (h.words _ (by decide)) (h.over (by decide) (h.wrapped (ih n1 v hv))
            (h.over (by decide) (h.wrapped (ih' n2 w hw)) (h.wrapped (ih'' n3 u hu))))
  | @unary op l s e _ _ _ _ ih =>
    intro hn x hx
    have n1 : ¬ g <:+: s := fun hi => hn (hi.trans ⟨op ++ l, [], by simp⟩)
    simp only [nodeValue] at hx
    cases ho : operatorName op with
    | none => simp [ho] at hx
    | some name =>
      cases hv : nodeValue e with
      | none => simp [ho, hv] at hx
      | some v =>
        simp only [ho, hv, Option.bind_eq_bind, Option.bind_some, Option.map_some] at hx
        have hw := h.wrapped (ih n1 v hv)
        obtain ⟨m1, m2⟩ := h.name ho
        split at hx
        · split at hx
          · cases hx
            rw [mu_char (by decide)]
            exact h.behind (by decide) hw
          · cases hx
            rw [mu_sub]
            exact h.over (by decide) (h.op (T "-", c!"sub") (by decide)) (h.over (by decide) (h.words _ (by decide)) hw)
        · cases hx
          rw [mu_append, mu_char (by decide), m1]
          exact h.over (by decide) m2 hw
  | @binary a l y r b op p e e' _ _ _ _ _ _ hb ih ih' =>
    intro hn x hx
    have n1 : ¬ g <:+: a := fun hi => hn (hi.trans (List.prefix_append _ _).isInfix)
    have n2 : ¬ g <:+: b := fun hi => hn (hi.trans ⟨a ++ (l ++ (y ++ r)), [], by simp⟩)
    simp only [nodeValue] at hx
    cases ho : operatorName op with
    | none => simp [ho] at hx
    | some name =>
      cases hv : nodeValue e with
      | none => simp [ho, hv] at hx
      | some v =>
        cases hw : nodeValue e' with
        | none => simp [ho, hv, hw] at hx
        | some w =>
          simp only [ho, hv, hw, Option.bind_eq_bind, Option.bind_some, Option.map_some] at hx
          obtain ⟨m1, m2⟩ := h.name ho
          have hstar : '*' ∉ wrap w := by
            obtain ⟨w', hg⟩ := good_of_covered (source_covered hb).1
            rw [hg.nv] at hw
            cases hw
            intro hm
            rcases mem_wrap hm with hm | hm | hm
            · exact absurd hm (by decide)
            · exact absurd hm (by decide)
            · exact hg.star hm
          rw [if_neg (fun hh => hstar hh.2)] at hx
          cases hx
          simp only [List.append_assoc, List.cons_append, mu_append, mu_char (show ' ' ∉ [dotRep, globalRep, funcCall, dollarRep] by decide), m1]
          exact h.over (by decide) m2 (h.over (by decide) (h.wrapped (ih n1 v hv)) (h.wrapped (ih' n2 w hw)))
  | up _ _ ih => exact ih

end Verif.Lemmas
