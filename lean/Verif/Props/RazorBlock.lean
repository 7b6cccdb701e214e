import Verif.Lemmas.RazorBlockRules
import Verif.Props.RazorParen
/-!
# C113: the commands of a razor template
-/

namespace Verif.Props
open Verif Regex Spec Engine Razor Lemmas _root_.Verif.Insert

/-- C113, loops. In a text where the uses of the delimiter are those of `C113_blocks_partial` once each `@for (`, `@foreach (` or `@for each (` is read as `@range(`,
each one is replaced as it is there, and nothing else changes. -/
theorem C113_loops_partial (letter : Char → Bool) (hl : SignLetters letter) (mode : Razor.Validation) (parser : Replacement → Text → Text) (hp : Parses letter parser)
    (ha : Assigns letter mode parser) (s s' : Text) (h : HasBlocks letter s') (hlo : Loops s s') (hs : NoOtherSign s) (hb : ¬ c!")[" <:+: s) (hm : '♠' ∉ s) (hz : RazorAllowed s) :
    Blocks letter (checkOf mode) (fun operations code => parsePipeline code = some operations) true s' (applyRazor letter parser defaultDelims s) := by
  obtain ⟨out, h⟩ := h
  by_cases hat : '@' ∈ s
  · obtain ⟨u1, u2, u3, u4, h⟩ := block_steps mode h (fun hi => hs callMark (by decide) (loop_infix hlo (f' := c!"__FuncCall_") (c := '_') rfl (by decide) (by decide) (by decide) hi))
    obtain ⟨t1, t2, t3, h', hr⟩ := block_result hl h
    have : applyRazor letter parser defaultDelims s = t3 := by
      unfold applyRazor translateBy
      rw [if_pos (isRazor_of hat hz), first_rules parser (fun hi => hs ['`'] (by decide) (singleton_infix hi))]
      exact rules_block hl hp ha hlo h h' hs hb hm
    rw [this]
    exact hr
  · have : applyRazor letter parser defaultDelims s = s := by
      unfold applyRazor
      rw [if_neg]
      intro hr
      simp only [Content.isRazor, Bool.and_eq_true] at hr
      exact hat ((Text.contains_iff.mp hr.1.1).subset (by decide))
    rw [this]
    cases hlo with
    | plain _ ha => exact .plain true _ ha
    | other a t t' => exact absurd (by simp) hat
    | loop a m g t t' r => exact absurd (by simp) hat

/-- C113. In a text where the uses of the delimiter are commands with an expression at the ends of lines, `@if (…)`, `@else if (…)`, `@with ($x := …)`,
`@range ($i, $x := …)`, `@block (…)`, `@define (…)`, the `@else` and `@end` of their bodies, expressions `@(…)` and assignments of a variable of the template, of the
context or of the globals, `@x := …`, `@.x = …`, `@$x += …`, each one is replaced by the code of its command or of its assignment, whose operations are those of the
expression, after the check that the variable exists if it has to (by the mode of the assignments), and nothing else changes, whatever the order of the maps. -/
theorem C113_blocks_partial (letter : Char → Bool) (hl : SignLetters letter) (mode : Razor.Validation) (parser : Replacement → Text → Text) (hp : Parses letter parser)
    (ha : Assigns letter mode parser) (s : Text) (h : HasBlocks letter s) (hs : NoOtherSign s) (hb : ¬ c!")[" <:+: s) (hm : '♠' ∉ s) (hz : RazorAllowed s) :
    Blocks letter (checkOf mode) (fun operations code => parsePipeline code = some operations) true s (applyRazor letter parser defaultDelims s) := by
  have hlo : Loops s s := by
    obtain ⟨out, h⟩ := h
    obtain ⟨u1, u2, u3, u4, h⟩ := block_steps mode h (hs callMark (by decide))
    exact shape_loops hl.1 (block_shape hl h)
  exact C113_loops_partial letter hl mode parser hp ha s s h hlo hs hb hm hz

/-- A text whose first line is empty is not the name of a host. -/
theorem notHost_line {letter : Char → Bool} (hl : PlainLetters letter) (b : Text) : NotHost letter ('\n' :: b) := by
  intro f c e hf hc hq
  cases f with
  | nil => simp at hq
  | cons d f =>
    simp only [List.cons_append, List.cons.injEq] at hq
    have := hf d (List.mem_cons_self ..)
    rw [← hq.1] at this
    unfold hostChar varChar at this
    rw [hl.1 _ (by decide)] at this
    revert this
    decide

theorem notIf_line (b : Text) : NotIf ('\n' :: b) := by
  intro w v e hw _ hq
  cases w with
  | nil => simp at hq
  | cons d w =>
    simp only [List.cons_append, List.cons.injEq] at hq
    exact absurd (hw d (List.mem_cons_self ..)) (by rw [← hq.1]; decide)

theorem remains_line (b : Text) : Remains ('\n' :: b) ('\n' :: b) := .inr ⟨rfl, fun w e hw h => by
  cases w with
  | nil => simp at h
  | cons d w =>
    simp only [List.cons_append, List.cons.injEq] at h
    exact absurd (hw d (List.mem_cons_self ..)) (by rw [← h.1]; decide)⟩

theorem closes_line (b : Text) : Closes ('\n' :: b) ('\n' :: b) := by
  refine ⟨[], '\n' :: b, '\n' :: b, rfl, by simp, by rintro _ ⟨⟩; rfl, .none _ (fun m hm hp => ?_), remains_line b⟩
  obtain ⟨t, ht⟩ := hp
  revert ht
  simp only [closingWords, List.mem_cons, List.not_mem_nil, or_false] at hm
  rcases hm with rfl | rfl | rfl | rfl | rfl | rfl <;> simp

/-- A condition, another one, the assignment of a sum, a loop with two variables, and an expression in it. -/
example : HasBlocks Char.isAlpha c!"@if ($x + 2) \n a\n@--else if($x)\n@else\n b\n@end\n@count += $x\n@range($i, $v := $x)\n - @($v)\n@end\n" := by
  have x : ∀ {c : Char}, c ∈ c!"xv" → ExprText Char.isAlpha 7 ['$', c] (.ident (.loc [c])) := by
    intro c hc
    simp only [List.mem_cons, List.not_mem_nil, or_false] at hc
    rcases hc with rfl | rfl
    · exact .variable (.loc c!"x") (.local _ (by decide)) (.inr (by decide)) (by decide +kernel)
    · exact .variable (.loc c!"v") (.local _ (by decide)) (.inr (by decide)) (by decide +kernel)
  have two : ExprText Char.isAlpha 7 c!"2" (.lit c!"2") := .number (by decide) (by decide)
  have u : ExprText Char.isAlpha 4 c!"$x + 2" _ :=
    .binary (a := c!"$x") (l := c!" ") (x := c!"+") (r := c!" ") (b := c!"2") (.go (p := 4) (by decide)) (by decide) (by decide) (by decide)
      (apart_char (c := ' ') rfl (by decide) (by decide)) (source_up 4 3 (by decide) (x (by decide))) (source_up 5 2 (by decide) two)
  have count : ExprText Char.isAlpha 7 c!"$.count" _ :=
    .sel (s := c!"$") (c := '$') (n := c!"count") (.variable (.loc []) (.local _ (by decide)) (.inl rfl) (by decide +kernel)) (by intro v; simp [inner]) rfl (by unfold beforeDot; decide)
      (.global 'c' c!"ount" (by decide) (by decide) (by decide)) (by decide)
  have sum : ExprText Char.isAlpha 4 c!"$.count + ($x)" _ :=
    .binary (a := c!"$.count") (l := c!" ") (x := c!"+") (r := c!" ") (b := c!"($x)") (.go (p := 4) (by decide)) (by decide) (by decide) (by decide)
      (apart_char (c := ' ') rfl (by decide) (by decide)) (source_up 4 3 (by decide) count) (source_up 5 2 (by decide) (.paren (l := []) (r := []) (by decide) (by decide) (source_up 1 6 (by decide) (x (by decide)))))
  have k : ∀ a : Text, a = [] ∨ a.getLast? = some '\n' ∨ a.getLast? = some ' ' → NotQuoted a := by
    intro a ha u
    constructor <;> (rintro rfl; simp at ha)
  have hv : Insertable Char.isAlpha c!"$v" _ := ⟨source_up 1 6 (by decide) (x (by decide)), by decide +kernel, by decide +kernel, by decide +kernel⟩
  have hx : Insertable Char.isAlpha c!"$x" _ := ⟨source_up 1 6 (by decide) (x (by decide)), by decide +kernel, by decide +kernel, by decide +kernel⟩
  have hl := signLetters_alpha.1
  have b6 : Blocks Char.isAlpha none (fun _ _ => True) false c!"\n@end\n" _ :=
    .fin false c!"\n" c!"\n" c!"\n" _ ([], [], []) (by decide) (notCommented_text (by decide)) (k _ (by decide)) (by decide) (by decide) (notHost_line hl _) (closes_line _) (.plain _ _ (by decide))
  have b5 : Blocks Char.isAlpha none (fun _ _ => True) false c!"\n - @($v)\n@end\n" _ :=
    .expr false c!"\n - " [] c!"$v" [] c!"\n@end\n" _ _ _ ([], [], []) (by decide) (notCommented_text (by decide)) (k _ (by decide)) (by decide) (by decide) (by decide) hv trivial
      (lineFree_alone (lineFree_line _)) (remains_line _) b6
  have b4 : Blocks Char.isAlpha none (fun _ _ => True) false c!"\n@range($i, $v := $x)\n - @($v)\n@end\n" _ :=
    .command false c!"\n" c!"range" [] [] c!"$i, $v := " c!"$x" [] [] c!"\n - @($v)\n@end\n" _ _ ([], [], []) (by decide) (notCommented_text (by decide)) (k _ (by decide)) (by decide)
      (by decide) (.word _ (by decide)) (by decide) (by decide) (.two c!"i" c!", " c!"v" c!" " c!" " ⟨by decide, by decide⟩ (by unfold Separators; decide) ⟨by decide, by decide⟩ (by unfold Separators; decide) (by decide)) hx
      (by decide) trivial (by decide) (by decide) b5
  have b4' : Blocks Char.isAlpha none (fun _ _ => True) false c!"\n@count += $x\n@range($i, $v := $x)\n - @($v)\n@end\n" _ :=
    .assign false c!"\n" c!"count" c!" " c!"+=" c!" " c!"$x" c!"=" c!"$.count + ($x)" _ _ _ _ ([], c!"$.", some c!"$") (by decide) (notCommented_text (by decide)) (k _ (by decide))
      (by decide) (by decide) ⟨⟨_, _, rfl, by decide⟩, by decide, by decide⟩ (by decide) (.operation c!"+" (by decide)) (by decide) (by decide) (by decide) (by decide)
      ⟨source_up 1 3 (by decide) sum, by decide +kernel, by decide +kernel, by decide +kernel⟩ (by decide) (by decide) (.set c!"$" [] rfl (.inr rfl) trivial) (by decide) b4
  have b3 : Blocks Char.isAlpha none (fun _ _ => True) false c!"\n b\n@end\n@count += $x\n@range($i, $v := $x)\n - @($v)\n@end\n" _ :=
    .fin false c!"\n b\n" c!"\n@count += $x\n@range($i, $v := $x)\n - @($v)\n@end\n" _ _ ([], [], []) (by decide) (notCommented_text (by decide)) (k _ (by decide)) (by decide) (by decide)
      (notHost_line hl _) (closes_line _) b4'
  have b2 : Blocks Char.isAlpha none (fun _ _ => True) false c!"\n@else\n b\n@end\n@count += $x\n@range($i, $v := $x)\n - @($v)\n@end\n" _ :=
    .els false c!"\n" c!"\n b\n@end\n@count += $x\n@range($i, $v := $x)\n - @($v)\n@end\n" _ ([], [], []) (by decide) (notCommented_text (by decide)) (k _ (by decide)) (by decide) (by decide)
      (notHost_line hl _) (notIf_line _) b3
  have b1 : Blocks Char.isAlpha none (fun _ _ => True) false c!"\n a\n@--else if($x)\n@else\n b\n@end\n@count += $x\n@range($i, $v := $x)\n - @($v)\n@end\n" _ :=
    .command false c!"\n a\n" c!"else if" [] [] [] c!"$x" [] [] _ _ _ (c!"--", c!"-", c!"-") (by decide) (notCommented_text (by decide)) (k _ (by decide)) (by decide)
      (by decide) (.elseIf c!" " (by decide) (by decide)) (by decide) (by decide) .none hx (by decide) trivial (by decide) (by decide) b2
  exact ⟨_, .command true [] c!"if" c!" " [] [] c!"$x + 2" [] c!" " _ _ _ ([], [], []) (by decide) (notCommented_text (by decide)) (k _ (by decide)) (by decide)
      (by decide) (.word _ (by decide)) (by decide) (by decide) .none ⟨source_up 1 3 (by decide) u, by decide +kernel, by decide +kernel, by decide +kernel⟩ (by decide) trivial
      (by decide) (by decide) b1⟩

example : NoOtherSign c!"@if ($x + 2) \n a\n@--else if($x)\n@else\n b\n@end\n@count += $x\n@range($i, $v := $x)\n - @($v)\n@end\n" ∧
    ¬ c!")[" <:+: c!"@if ($x + 2) \n a\n@--else if($x)\n@else\n b\n@end\n@count += $x\n@range($i, $v := $x)\n - @($v)\n@end\n" ∧
    '♠' ∉ c!"@if ($x + 2) \n a\n@--else if($x)\n@else\n b\n@end\n@count += $x\n@range($i, $v := $x)\n - @($v)\n@end\n" ∧
    RazorAllowed c!"@if ($x + 2) \n a\n@--else if($x)\n@else\n b\n@end\n@count += $x\n@range($i, $v := $x)\n - @($v)\n@end\n" := by
  unfold NoOtherSign RazorAllowed
  decide +kernel

/-- A sum that is assigned to a variable that must exist. -/
example : applyRazor Char.isAlpha (parserOf Char.isAlpha otherOrders .strict) defaultDelims c!"@count += $x\n" =
    c!"{{- assert (not (isNil $.count)) \"$.count does not exist, use := to declare new variable\" }}{{- set $ \"count\" (add $.count $x) }}\n" := by
  decide +kernel

/-- A loop with two variables and a loop in it. -/
example : Loops c!"@-foreach ($i, $v := $x)\n@for ($w := $v)\n@end\n@end\n" c!"@-range($i, $v := $x)\n@range($w := $v)\n@end\n@end\n" := by
  have n : NotLoop c!"end\n" ∧ NotLoop c!"end\n@end\n" := by
    constructor <;>
    · intro r m g y hr hm _ he
      have : r.1.head? = none ∨ r.1.head? = some '-' ∨ r.1.head? = some '_' := (by decide : ∀ r ∈ reduceSigns, r.1.head? = none ∨ r.1.head? = some '-' ∨ r.1.head? = some '_') r hr
      have he := congrArg List.head? he
      cases hm <;> rcases this with h | h | h <;> rw [List.head?_append, h] at he <;> simp at he
  exact .loop [] c!"foreach" c!" " _ _ (c!"-", c!"-", []) (by decide) (by decide) (.each [] (by simp)) (by decide)
    (.loop c!"$i, $v := $x)\n" c!"for" c!" " _ _ ([], [], []) (by decide) (by decide) .short (by decide)
      (.other c!"$w := $v)\n" _ _ (by decide) n.2 (.other c!"end\n" _ _ (by decide) n.1 (.plain _ (by decide)))))

example : HasBlocks Char.isAlpha c!"@-range($i, $v := $x)\n@range($w := $v)\n@end\n@end\n" := by
  have x : ∀ {c : Char}, c ∈ c!"xv" → Insertable Char.isAlpha ['$', c] (.ident (.loc [c])) := by
    intro c hc
    simp only [List.mem_cons, List.not_mem_nil, or_false] at hc
    rcases hc with rfl | rfl
    · exact ⟨source_up 1 6 (by decide) (.variable (.loc c!"x") (.local _ (by decide)) (.inr (by decide)) (by decide +kernel)), by decide +kernel, by decide +kernel, by decide +kernel⟩
    · exact ⟨source_up 1 6 (by decide) (.variable (.loc c!"v") (.local _ (by decide)) (.inr (by decide)) (by decide +kernel)), by decide +kernel, by decide +kernel, by decide +kernel⟩
  have k : ∀ a : Text, a = [] ∨ a.getLast? = some '\n' → NotQuoted a := by
    intro a ha u
    constructor <;> (rintro rfl; simp at ha)
  have hl := signLetters_alpha.1
  have b3 : Blocks Char.isAlpha none (fun _ _ => True) false c!"\n@end\n" _ :=
    .fin false c!"\n" c!"\n" c!"\n" _ ([], [], []) (by decide) (notCommented_text (by decide)) (k _ (by decide)) (by decide) (by decide) (notHost_line hl _) (closes_line _) (.plain _ _ (by decide))
  have b2 : Blocks Char.isAlpha none (fun _ _ => True) false c!"\n@end\n@end\n" _ :=
    .fin false c!"\n" c!"\n@end\n" c!"\n@end\n" _ ([], [], []) (by decide) (notCommented_text (by decide)) (k _ (by decide)) (by decide) (by decide) (notHost_line hl _) (closes_line _) b3
  have b1 : Blocks Char.isAlpha none (fun _ _ => True) false c!"\n@range($w := $v)\n@end\n@end\n" _ :=
    .command false c!"\n" c!"range" [] [] c!"$w := " c!"$v" [] [] _ _ _ ([], [], []) (by decide) (notCommented_text (by decide)) (k _ (by decide)) (by decide)
      (by decide) (.word _ (by decide)) (by decide) (by decide) (.one c!"w" c!" " c!" " ⟨by decide, by decide⟩ (by unfold Separators; decide) (by decide)) (x (by decide))
      (by decide) trivial (by decide) (by decide) b2
  exact ⟨_, .command true [] c!"range" [] [] c!"$i, $v := " c!"$x" [] [] _ _ _ (c!"-", c!"-", []) (by decide) (notCommented_text (by decide)) (k _ (by decide)) (by decide)
      (by decide) (.word _ (by decide)) (by decide) (by decide) (.two c!"i" c!", " c!"v" c!" " c!" " ⟨by decide, by decide⟩ (by unfold Separators; decide) ⟨by decide, by decide⟩ (by unfold Separators; decide) (by decide)) (x (by decide))
      (by decide) trivial (by decide) (by decide) b1⟩

/-- A word that only begins with `for` is the name of a variable. -/
example : applyRazor Char.isAlpha (parserOf Char.isAlpha otherOrders .disabled) defaultDelims c!"@forall ($x)\n" = c!"{{ $.forall }} ($x)\n" := by
  decide +kernel

/-- An operator that may be in a name, without a blank before it, is a part of the name. -/
theorem C113_not_operator : applyRazor Char.isAlpha (parserOf Char.isAlpha otherOrders .disabled) defaultDelims c!"@x+=1\n" = c!"{{- set $ \"x+\" 1 }}\n" := by
  decide +kernel

/-- A variable whose name begins with `end` is not assigned. -/
theorem C113_not_end : applyRazor Char.isAlpha (parserOf Char.isAlpha otherOrders .disabled) defaultDelims c!"@endpoint := 5\n" = c!"{{ end }}point := 5\n" := by
  decide +kernel

/-- The call of a method of the context is not put between parentheses: its argument is one of `set`. -/
theorem C113_not_method : applyRazor Char.isAlpha (parserOf Char.isAlpha otherOrders .disabled) defaultDelims c!"@x := .m(5)\n" = c!"{{- set $ \"x\" .m 5 }}\n" := by
  decide +kernel

/-- Without a blank in `else if`, the code is not one that templates have. -/
theorem C113_not_elseif : applyRazor Char.isAlpha (parserOf Char.isAlpha otherOrders .warning) defaultDelims c!"@elseif ($x)" = c!"{{ elseif $x }}" := by
  decide +kernel

end Verif.Props
