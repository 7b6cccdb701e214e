import Verif.Lemmas.RazorParenLines
import Verif.Props.RazorWord
/-!
# C112: expressions between parentheses in a razor template
-/

namespace Verif.Props
open Verif Regex Spec Engine Razor Lemmas _root_.Verif.Insert

/-- C112. In a text where the only uses of the delimiter are expressions between parentheses, `@(…)`, with their signs for the spaces, each one is replaced by a
code whose operations are those of the expression, and nothing else changes, whatever the order of the maps. Several
expressions may be on one line, but no other parentheses after them. -/
theorem C112_expressions_partial (letter : Char → Bool) (hl : SignLetters letter) (parser : Replacement → Text → Text) (hp : Parses letter parser) (s : Text)
    (h : HasExpressions letter s) (hs : NoOtherSign s) (hb : ¬ c!")[" <:+: s) (hm : '♠' ∉ s) (hz : RazorAllowed s) :
    Expressions letter (fun e code => parsePipeline code = some (meaning e)) s (applyRazor letter parser defaultDelims s) := by
  obtain ⟨out, h⟩ := h
  by_cases hat : '@' ∈ s
  · obtain ⟨t1, t2, t3, h, hr⟩ := paren_steps hl h (hs callMark (by decide))
    have : applyRazor letter parser defaultDelims s = t3 := by
      unfold applyRazor translateBy
      rw [if_pos (isRazor_of hat hz), first_rules parser (fun hi => hs ['`'] (by decide) (singleton_infix hi)), split_rules 2 140,
        rules_before_paren hl.1 parser (paren_shape hl h) hs hb]
      exact rules_from_paren hl hp h hb hm fun f hf => hs f ((by decide : ∀ f ∈ [c!"`", c!"\"<<", c!"\"{{", c!"_=!"], f ∈ otherSigns) f hf)
    rw [this]
    exact hr
  · have : applyRazor letter parser defaultDelims s = s := by
      unfold applyRazor
      rw [if_neg]
      intro hr
      simp only [Content.isRazor, Bool.and_eq_true] at hr
      exact hat ((Text.contains_iff.mp hr.1.1).subset (by decide))
    rw [this]
    exact .plain s hat

theorem parserOf_parses (letter : Char → Bool) (o : Prepare.Orders) (ho : SomeOrder o) (mode : Validation) : Parses letter (parserOf letter o mode) := by
  intro rule re m hn hre
  refine ⟨o, ho.words, ho.signs, ho.operators, ?_⟩
  unfold parserOf
  simp only [hre]
  have h1 : rule.name ≠ c!"Assign - @var := value" := by
    intro e
    rw [e] at hn
    exact absurd hn (by decide)
  have h2 : rule.name ∉ indexedRules :=
    (by decide +kernel : ∀ n ∈ [c!"Expression @(var)", c!"Expression @(expr)", c!"Command(expr)"], n ∉ indexedRules) _ hn
  rw [if_neg h1, if_neg h2]

theorem parserOf_slices (letter : Char → Bool) (o : Prepare.Orders) (ho : SomeOrder o) (mode : Validation) : Slices letter (parserOf letter o mode) := by
  intro rule re m hn hre
  refine ⟨o, ho.words, ho.signs, ho.operators, ?_⟩
  unfold parserOf
  simp only [hre]
  have h1 : rule.name ≠ c!"Assign - @var := value" := by
    intro e
    rw [e] at hn
    exact absurd hn (by decide)
  rw [if_neg h1, if_pos hn]

theorem parserOf_calls (letter : Char → Bool) (o : Prepare.Orders) (ho : SomeOrder o) (mode : Validation) : Calls letter (parserOf letter o mode) := by
  intro rule re m hn hre
  refine ⟨o, ho.words, ho.signs, ho.operators, ?_⟩
  unfold parserOf
  simp only [hre]
  rw [if_neg (by rw [hn]; decide), if_neg (by rw [hn]; decide +kernel)]

theorem parserOf_singles (letter : Char → Bool) (o : Prepare.Orders) (ho : SomeOrder o) (mode : Validation) : Singles letter (parserOf letter o mode) := by
  intro rule re m hn hre
  refine ⟨o, ho.words, ho.signs, ho.operators, ?_⟩
  unfold parserOf
  simp only [hre]
  rw [if_neg (by rw [hn]; decide), if_neg (by rw [hn]; decide +kernel)]

theorem parserOf_braces (letter : Char → Bool) (o : Prepare.Orders) (ho : SomeOrder o) (mode : Validation) : Braces letter (parserOf letter o mode) := by
  intro rule re m hn hre
  refine ⟨o, ho.words, ho.signs, ho.operators, ?_⟩
  unfold parserOf
  simp only [hre]
  rw [if_neg (by rw [hn]; decide), if_neg (by rw [hn]; decide +kernel)]

theorem parserOf_assigns (letter : Char → Bool) (o : Prepare.Orders) (ho : SomeOrder o) (mode : Validation) : Assigns letter mode (parserOf letter o mode) := by
  intro rule re m hn hre
  refine ⟨o, ho.words, ho.signs, ho.operators, ?_⟩
  unfold parserOf
  simp only [hre]
  rw [if_pos hn]

theorem lineFree_line (b : Text) : LineFree ('\n' :: b) := by
  intro u v h
  cases u with
  | nil => simp at h
  | cons c u =>
    simp only [List.cons_append, List.cons.injEq] at h
    rw [← h.1]
    exact List.mem_cons_self ..

/-- A delimiter before any parenthesis, without a colon before it, and no other parenthesis after this one. -/
theorem alone_next {a x b : Text} (ha : ')' ∉ a) (hx : ')' ∉ x) (hc : ':' ∉ a ++ '@' :: x) (hb : LineFree b) : Alone (a ++ '@' :: (x ++ ')' :: b)) := by
  have := alone_skip (x := a ++ '@' :: x) (d := []) (y := []) (by simp) hb (fun u v h => ?_)
  · simpa using this
  · right
    have hn : ')' ∉ a ++ '@' :: x := by simp [ha, hx]
    have : u = a ++ '@' :: x := by
      rcases List.append_eq_append_iff.mp h with ⟨z, h1, h2⟩ | ⟨z, h1, h2⟩
      · cases z with
        | nil => rw [h1, List.append_nil]
        | cons c z =>
          simp only [List.cons_append, List.cons.injEq] at h2
          simp at h2
      · cases z with
        | nil => rw [h1, List.append_nil]
        | cons c z =>
          simp only [List.cons_append, List.cons.injEq] at h2
          exact absurd (by rw [h1, h2.1]; simp) hn
    rw [this]
    exact ⟨by simp, fun hi => hc (hi.subset (by decide))⟩

/-- Two operations on one line, and a variable on another one. -/
example : HasExpressions Char.isAlpha c!"a: @( $x);\nb: @--(f(2) + $x) and @(2 + $x)\n" := by
  have x : ExprText Char.isAlpha 7 c!"$x" (.ident (.loc c!"x")) := .variable (.loc c!"x") (.local _ (by decide)) (.inr (by decide)) (by decide +kernel)
  have two : ExprText Char.isAlpha 7 c!"2" (.lit c!"2") := .number (by decide) (by decide)
  have f : ExprText Char.isAlpha 7 c!"f(2)" _ := .call (n := c!"f") [⟨[], c!"2", [], .lit c!"2"⟩] (.global _ _ (by decide) (by decide) (by decide +kernel)) (by decide)
    (by decide) (by
      intro a ha
      cases List.mem_singleton.mp ha
      exact source_up 1 6 (by decide) two)
  have u : ExprText Char.isAlpha 4 c!"f(2) + $x" _ :=
    .binary (a := c!"f(2)") (l := c!" ") (x := c!"+") (r := c!" ") (b := c!"$x") (.go (p := 4) (by decide)) (by decide) (by decide) (by decide)
      (apart_char (c := ' ') rfl (by decide) (by decide)) (source_up 4 3 (by decide) f) (source_up 5 2 (by decide) x)
  have u' : ExprText Char.isAlpha 4 c!"2 + $x" _ :=
    .binary (a := c!"2") (l := c!" ") (x := c!"+") (r := c!" ") (b := c!"$x") (.go (p := 4) (by decide)) (by decide) (by decide) (by decide)
      (apart_char (c := ' ') rfl (by decide) (by decide)) (source_up 4 3 (by decide) two) (source_up 5 2 (by decide) x)
  have k : ∀ a : Text, a.getLast? = some ' ' → NotQuoted a := by
    intro a ha u
    constructor <;> (rintro rfl; simp at ha)
  have stays : ∀ {c : Char} {t : Text}, c ∉ c!" \t;" → Remains (c :: t) (c :: t) := fun {c t} hc => .inr ⟨rfl, fun w e hw h => by
    cases w with
    | nil =>
      simp only [List.nil_append, List.cons.injEq] at h
      exact hc (by rw [h.1]; decide)
    | cons d w =>
      simp only [List.cons_append, List.cons.injEq] at h
      have := hw d (List.mem_cons_self ..)
      rw [← h.1] at this
      simp only [isBlank, Bool.or_eq_true, beq_iff_eq] at this
      exact hc (by rcases this with e | e <;> (rw [e]; decide))⟩
  have blank : Remains c!" and @(2 + $x)\n" c!" and @(2 + $x)\n" := .inr ⟨rfl, fun w e hw h => by
    match w with
    | [] => simp at h
    | [_] => simp at h
    | _ :: d :: w =>
      simp only [List.cons_append, List.cons.injEq] at h
      exact absurd (hw d (by simp)) (by rw [← h.2.1]; decide)⟩
  have r3 : Expressions Char.isAlpha (fun _ _ => True) c!" and @(2 + $x)\n" _ :=
    .expr c!" and " [] c!"2 + $x" c!"" c!"\n" c!"\n" c!"\n" _ ([], [], []) (by decide) (notCommented_text (by decide)) (k _ rfl) (by decide) (by decide) (by decide)
      ⟨source_up 1 3 (by decide) u', by decide +kernel, by decide +kernel, by decide +kernel⟩ trivial (lineFree_alone (lineFree_line _)) (stays (by decide)) (.plain _ (by decide))
  have r2 : Expressions Char.isAlpha (fun _ _ => True) c!"\nb: @--(f(2) + $x) and @(2 + $x)\n" _ :=
    .expr c!"\nb: " [] c!"f(2) + $x" c!"" c!" and @(2 + $x)\n" _ _ _ (c!"--", c!"-", c!"-") (by decide) (notCommented_text (by decide)) (k _ rfl) (by decide) (by decide)
      (by decide) ⟨source_up 1 3 (by decide) u, by decide +kernel, by decide +kernel, by decide +kernel⟩ trivial
      (alone_next (a := c!" and ") (x := c!"(2 + $x") (by decide) (by decide) (by decide) (lineFree_line [])) blank r3
  exact ⟨_, .expr c!"a: " c!" " c!"$x" c!"" c!";\nb: @--(f(2) + $x) and @(2 + $x)\n" _ _ _ ([], [], []) (by decide) (notCommented_text (by decide)) (k _ rfl) (by decide)
    (by decide) (by decide) ⟨source_up 1 6 (by decide) x, by decide +kernel, by decide +kernel, by decide +kernel⟩ trivial
    (lineFree_alone (lineFree_plain (d := [';']) (by decide) (lineFree_line _))) (.inl ⟨[], by decide, rfl⟩) r2⟩

example : NoOtherSign c!"a: @( $x);\nb: @--(f(2) + $x) and @(2 + $x)\n" ∧ ¬ c!")[" <:+: c!"a: @( $x);\nb: @--(f(2) + $x) and @(2 + $x)\n" ∧
    '♠' ∉ c!"a: @( $x);\nb: @--(f(2) + $x) and @(2 + $x)\n" ∧ RazorAllowed c!"a: @( $x);\nb: @--(f(2) + $x) and @(2 + $x)\n" := by
  unfold NoOtherSign RazorAllowed
  decide +kernel

example : SignLetters Char.isAlpha ∧ Parses Char.isAlpha (parserOf Char.isAlpha otherOrders .warning) := ⟨signLetters_alpha, parserOf_parses _ _ otherOrders_some _⟩

/-- Other parentheses follow the expression on its line: the text up to the last of them is put in the code. -/
theorem C112_not_alone : applyRazor Char.isAlpha (parserOf Char.isAlpha otherOrders .warning) defaultDelims c!"@(a + b) (c)" = c!"{{ a + b) (c }}" := by
  decide +kernel

end Verif.Props
