import Verif.Lemmas.RazorCallRule
import Verif.Props.RazorIndexed
/-!
# C116: calls of functions in a razor text
-/

namespace Verif.Props
open Spec Engine Razor Lemmas Table _root_.Verif.Insert

/-- C116. `@name(…)` becomes a code whose operations are those of the expression, a call with its arguments (or any expression that begins with a call and ends with a
parenthesis), and the rest of the text is left as it is, whatever the order of the maps. Missing: a selection or an index after a parenthesis, a closing parenthesis later on the line, the functions that indent and wrap automatically, and the texts
with several razor expressions (see C114 for those on other lines). -/
theorem C116_call_partial (letter : Char → Bool) (hl : SignLetters letter) (parser : Replacement → Text → Text) (hp : Calls letter parser) {a name z b b' : Text}
    {r : Text × Text × Text} {e : Expr} (ha : '@' ∉ a) (hc : NotCommented a) (hq : NotQuoted a) (hr : r ∈ reduceSigns) (hn : VarName letter name) (hw : name ∉ callWords)
    (hi : Insertable letter (name ++ '(' :: (z ++ [')'])) e) (hb : '@' ∉ b) (hnb : NoClosing b) (hrem : Remains b b')
    (hs : NoOtherSign (a ++ '@' :: (r.1 ++ (name ++ '(' :: (z ++ ')' :: b))))) (hno : ∀ f ∈ noCallSigns, ¬ f <:+: a ++ '@' :: (r.1 ++ (name ++ '(' :: (z ++ ')' :: b))))
    (hz : RazorAllowed (a ++ '@' :: (r.1 ++ (name ++ '(' :: (z ++ ')' :: b))))) :
    ∃ code, parsePipeline code = some (meaning e) ∧
      applyRazor letter parser defaultDelims (a ++ '@' :: (r.1 ++ (name ++ '(' :: (z ++ ')' :: b)))) = a ++ (wordCode code r.2.1 r.2.2 ++ b') := by
  obtain ⟨v, hv⟩ := good_of_covered (source_covered hi.source).1
  have hv := hv.nv
  refine ⟨rho v, (marks_removed hl hi hv).2, ?_⟩
  have hsrc := source_src hl hi.source
  have hpart : ∀ {x : Text}, x <:+: a ++ '@' :: (r.1 ++ (name ++ '(' :: (z ++ ')' :: b))) → ∀ f ∈ otherSigns, ¬ f <:+: x := fun hx f hf h => hs f hf (h.trans hx)
  have p1 := hpart (x := a) ⟨[], '@' :: (r.1 ++ (name ++ '(' :: (z ++ ')' :: b))), by simp⟩
  have p3 := hpart (x := name ++ '(' :: (z ++ [')'])) ⟨a ++ '@' :: r.1, b, by simp⟩
  obtain ⟨d, _, hdb, _⟩ := remains_dropped hrem
  have p4 := hpart (x := b') ⟨a ++ '@' :: (r.1 ++ (name ++ '(' :: (z ++ ')' :: d))), [], by rw [hdb]; simp⟩
  have hat : '@' ∈ a ++ '@' :: (r.1 ++ (name ++ '(' :: (z ++ ')' :: b))) := by simp
  have hb' : '@' ∉ b' := fun hm => hb (by rw [hdb]; exact List.mem_append_right _ hm)
  have hz' : '@' ∉ z := fun hm => hsrc.at_ (by simp [hm])
  have hsign : ∀ {x : Text}, '@' ∉ x → ¬ c!"@" <:+: x := fun hx h => hx (h.subset (by decide))
  have hfree : ∀ f ∈ [c!"@", c!"`", c!"\"<<", c!"\"{{", c!"_=!"], ¬ f <:+: a ++ (wordCode (mu v) r.2.1 r.2.2 ++ b') := by
    intro f hf
    rcases List.mem_cons.mp hf with rfl | h
    · exact call_free (by decide) hr hi hv hq (hsign ha) (hsign hsrc.at_) (hsign hb')
    · have ho := (by decide : ∀ f ∈ [c!"`", c!"\"<<", c!"\"{{", c!"_=!"], f ∈ otherSigns) f h
      exact call_free hf hr hi hv hq (p1 f ho) (p3 f ho) (p4 f ho)
  unfold applyRazor translateBy
  rw [if_pos (isRazor_of hat hz), first_rules parser (fun hi => hs ['`'] (by decide) (singleton_infix hi)), split_rules 2 78,
    rules_before_call hl.1 parser hc ha hr hn hw (by simp [hz', hb]) hs hno, split_rules 80 1, rule_call hl hp ha hr hn hi hv hnb hb hrem,
    rules_after_call parser (fun hm => hfree _ (by decide) (singleton_infix hm)) (fun f hf => hfree f (List.mem_cons_of_mem _ hf))]
  exact call_marks hl hr hi hv (p1 _ (by decide)) (p4 _ (by decide))

/-- A call with an operation in its arguments, signs for the spaces, and a semicolon that is dropped. -/
example : ∃ code, parsePipeline code = some (.call (.atom c!"g") [.atom c!"2", .call (.atom c!"add") [.atom c!"$x", .atom c!"1"]]) ∧
    applyRazor Char.isAlpha (parserOf Char.isAlpha otherOrders .warning) defaultDelims c!"see @--g(2, $x + 1); end" = c!"see {{- " ++ (code ++ c!" -}} end") := by
  have x : ExprText Char.isAlpha 7 c!"$x" (.ident (.loc c!"x")) := .variable (.loc c!"x") (.local _ (by decide)) (.inr (by decide)) (by decide +kernel)
  have one : ExprText Char.isAlpha 7 c!"1" (.lit c!"1") := .number (by decide) (by decide)
  have two : ExprText Char.isAlpha 7 c!"2" (.lit c!"2") := .number (by decide) (by decide)
  have u : ExprText Char.isAlpha 4 c!"$x + 1" _ :=
    .binary (a := c!"$x") (l := c!" ") (x := c!"+") (r := c!" ") (b := c!"1") (.go (p := 4) (by decide)) (by decide) (by decide) (by decide)
      (apart_char (c := ' ') rfl (by decide) (by decide)) (source_up 4 3 (by decide) x) (source_up 5 2 (by decide) one)
  have f : ExprText Char.isAlpha 7 c!"g(2, $x + 1)" _ := .call (n := c!"g") [⟨[], c!"2", [], .lit c!"2"⟩, ⟨c!" ", c!"$x + 1", [], .binary c!"+" (.ident (.loc c!"x")) (.lit c!"1")⟩]
    (.global _ _ (by decide) (by decide) (by decide +kernel)) (by decide) (by decide) (by
      intro a ha
      simp only [List.mem_cons, List.not_mem_nil, or_false] at ha
      rcases ha with rfl | rfl
      · exact source_up 1 6 (by decide) two
      · exact source_up 1 3 (by decide) u)
  have hi : Insertable Char.isAlpha (c!"g" ++ '(' :: (c!"2, $x + 1" ++ [')'])) _ := ⟨source_up 1 6 (by decide) f, by decide +kernel, by decide +kernel, by decide +kernel⟩
  have k : NotQuoted c!"see " := by
    intro u
    constructor <;> (intro h; have := congrArg List.getLast? h; simp at this)
  have hn : VarName Char.isAlpha c!"g" := ⟨⟨'g', c!"", rfl, by decide⟩, by decide, by decide, by decide, by decide⟩
  have hb : NoClosing c!"; end" := by
    intro u v h
    exact absurd (show ')' ∈ c!"; end" by rw [h]; simp) (by decide)
  obtain ⟨code, h1, h2⟩ := C116_call_partial Char.isAlpha signLetters_alpha _ (parserOf_calls _ otherOrders otherOrders_some .warning) (a := c!"see ") (b := c!"; end") (b' := c!" end")
    (r := (c!"--", c!"-", c!"-")) (by decide) (notCommented_text (by decide)) k (by decide) hn (by decide) hi (by decide) hb (.inl ⟨[], by decide, rfl⟩)
    (by unfold NoOtherSign; decide +kernel) (by decide +kernel) (by unfold RazorAllowed; decide +kernel)
  refine ⟨code, h1, ?_⟩
  have e : wordCode code c!"-" c!"-" ++ c!" end" = c!"{{- " ++ (code ++ c!" -}} end") := by simp [wordCode]
  rw [e] at h2
  exact h2

example : applyRazor Char.isAlpha (parserOf Char.isAlpha otherOrders .warning) defaultDelims c!"see @--g(2, $x + 1); end" = c!"see {{- g 2 (add $x 1) -}} end" := by
  decide +kernel

/-- Another parenthesis on the line: the words between are taken as a part of the expression. -/
theorem C116_not_alone : applyRazor Char.isAlpha (parserOf Char.isAlpha otherOrders .warning) defaultDelims c!"see @g(1) and (2)" = c!"see {{ and (g 1) 2 }}" := by
  decide +kernel

/-- When they are not an expression, they are still taken, and the code is not valid. -/
theorem C116_not_valid : applyRazor Char.isAlpha (parserOf Char.isAlpha otherOrders .warning) defaultDelims c!"see @g(1) so (2)" = c!"see {{ g 1) so (2 }}" ∧
    parsePipeline c!"g 1) so (2" = none := by
  decide +kernel

end Verif.Props
