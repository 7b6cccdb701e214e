import Verif.Lemmas.RazorSingleRule
import Verif.Props.RazorCall
/-!
# C118: commands of a single line in a razor text
-/

namespace Verif.Props
open Spec Engine Razor Lemmas Table _root_.Verif.Insert

/-- C118. `@if (…) action;`, and the same with `with` and `range`, becomes the command, whose code has the operations of the expression, the action as it is written,
and the end of the command, with the same signs for the spaces; the semicolon and the blanks around the action are dropped, and the rest of the text is left as it is. Missing: a closing parenthesis after the one of the command on its line, a semicolon, a brace or
a bracket in the expression, an action with razor in it, and the texts with several razor expressions (see C117 for those on other lines). -/
theorem C118_single_partial (letter : Char → Bool) (hl : SignLetters letter) (parser : Replacement → Text → Text) (hp : Singles letter parser)
    {a m g w x s k action u b : Text} {r : Text × Text × Text} {e : Expr} (ha : '@' ∉ a) (hc : NotCommented a) (hq : NotQuoted a) (hr : r ∈ reduceSigns) (hm : m ∈ lineWords)
    (hg : ∀ d ∈ g, isBlank d = true) (hw : ∀ d ∈ w, isBlank d = true) (hx : Assignment letter x) (hi : Insertable letter s e) (hpl : ∀ d ∈ c!";{[", d ∉ s)
    (hk : ∀ d ∈ k, isBlank d = true) (hact : Action action) (haat : '@' ∉ action) (hqa : NotQuoted action) (hsl : ¬ c!".slice" <:+: action) (hu : ∀ d ∈ u, isBlank d = true)
    (hb : '@' ∉ b) (hnb : NoClosing (k ++ (action ++ (u ++ ';' :: b)))) {t : Text}
    (ht : t = a ++ '@' :: (r.1 ++ (m ++ (g ++ '(' :: (w ++ (x ++ (s ++ ')' :: (k ++ (action ++ (u ++ ';' :: b)))))))))) (hs : NoOtherSign t)
    (hno : ∀ f ∈ autoSigns, ¬ f <:+: t) (hz : RazorAllowed t) :
    ∃ code, parsePipeline code = some (meaning e) ∧
      applyRazor letter parser defaultDelims t = a ++ (wordCode (m ++ ' ' :: (x ++ code)) r.2.1 r.2.2 ++ (action ++ (wordCode c!"end" r.2.1 r.2.2 ++ b))) := by
  obtain ⟨v, hv⟩ := good_of_covered (source_covered hi.source).1
  have hv := hv.nv
  refine ⟨rho v, (marks_removed hl hi hv).2, ?_⟩
  have hsrc := source_src hl hi.source
  have hpart : ∀ {y : Text}, y <:+: t → ∀ f ∈ otherSigns, ¬ f <:+: y := fun hy f hf h => hs f hf (h.trans hy)
  have p1 := hpart (y := a) ⟨[], '@' :: (r.1 ++ (m ++ (g ++ '(' :: (w ++ (x ++ (s ++ ')' :: (k ++ (action ++ (u ++ ';' :: b))))))))), by rw [ht]; simp⟩
  have p2 := hpart (y := x) ⟨a ++ '@' :: (r.1 ++ (m ++ (g ++ '(' :: w))), s ++ ')' :: (k ++ (action ++ (u ++ ';' :: b))), by rw [ht]; simp⟩
  have p3 := hpart (y := s) ⟨a ++ '@' :: (r.1 ++ (m ++ (g ++ '(' :: (w ++ x)))), ')' :: (k ++ (action ++ (u ++ ';' :: b))), by rw [ht]; simp⟩
  have p4 := hpart (y := action) ⟨a ++ '@' :: (r.1 ++ (m ++ (g ++ '(' :: (w ++ (x ++ (s ++ ')' :: k)))))), u ++ ';' :: b, by rw [ht]; simp⟩
  have p5 := hpart (y := b) ⟨a ++ '@' :: (r.1 ++ (m ++ (g ++ '(' :: (w ++ (x ++ (s ++ ')' :: (k ++ (action ++ (u ++ [';'])))))))) ), [], by rw [ht]; simp⟩
  have hcmd : Cmd letter m g w x s [] [] v r e := ⟨hr, lineWord_command hm, hg, hw, hx, hi, hpl, hv, nofun, .inl rfl, p2 _ (by decide)⟩
  have hat : '@' ∈ t := by rw [ht]; simp
  have hsign : ∀ {y : Text}, '@' ∉ y → ¬ c!"@" <:+: y := fun hy h => hy (h.subset (by decide))
  have hxat : '@' ∉ x := assignment_no hl hx (by decide)
  have blank_at : ∀ {y : Text}, (∀ d ∈ y, isBlank d = true) → '@' ∉ y := fun hy h => absurd (hy _ h) (by decide)
  have hfree : ∀ f ∈ [c!"@", c!"`", c!"\"<<", c!"\"{{", c!"_=!"], ¬ f <:+: a ++ (singleCode r m x (mu v) action ++ b) := by
    intro f hf
    rcases List.mem_cons.mp hf with rfl | h
    · exact single_free hl (by decide) hcmd hq hqa (hsign ha) (hsign hxat) (hsign hsrc.at_) (hsign haat) (hsign hb)
    · have ho := (by decide : ∀ f ∈ [c!"`", c!"\"<<", c!"\"{{", c!"_=!"], f ∈ otherSigns) f h
      exact single_free hl hf hcmd hq hqa (p1 f ho) (p2 f ho) (p3 f ho) (p4 f ho) (p5 f ho)
  have e1 : t = a ++ '@' :: (singleText r m g w x s k action u ++ b) := by rw [ht]; simp [singleText]
  unfold applyRazor translateBy
  rw [if_pos (isRazor_of hat hz), first_rules parser (fun hi => hs ['`'] (by decide) (singleton_infix hi)), split_rules 2 17]
  have e2 := rules_before_single hl.1 parser (z := w ++ (x ++ (s ++ ')' :: (k ++ (action ++ (u ++ ';' :: b)))))) hc ha hr hm hg
    (by simp [blank_at hw, hxat, hsrc.at_, blank_at hk, haat, blank_at hu, hb]) (by rw [← ht]; exact hs) (by rw [← ht]; exact hno)
  rw [← ht] at e2
  rw [e2, split_rules 19 1, e1, rule_single hl hp ha hm hcmd hk hact hsl hu hnb hb,
    rules_after_single parser (fun hm => hfree _ (by decide) (singleton_infix hm)) (fun f hf => hfree f (List.mem_cons_of_mem _ hf)),
    single_marks hl hcmd (p1 _ (by decide)) (p4 _ (by decide)) (p5 _ (by decide))]
  simp [singleCode, cmdCode]

/-- A loop with two variables, a blank before the parenthesis, and a sign for the spaces. -/
example : ∃ code, parsePipeline code = some (.call (.atom c!"add") [.atom c!"$x", .atom c!"1"]) ∧
    applyRazor Char.isAlpha (parserOf Char.isAlpha otherOrders .warning) defaultDelims c!"see @-range ($i, $v := $x + 1) so it is ; end" =
      c!"see {{- range $i, $v := " ++ (code ++ c!" }}so it is{{- end }} end") := by
  have x : ExprText Char.isAlpha 7 c!"$x" (.ident (.loc c!"x")) := .variable (.loc c!"x") (.local _ (by decide)) (.inr (by decide)) (by decide +kernel)
  have one : ExprText Char.isAlpha 7 c!"1" (.lit c!"1") := .number (by decide) (by decide)
  have s : ExprText Char.isAlpha 4 c!"$x + 1" _ :=
    .binary (a := c!"$x") (l := c!" ") (x := c!"+") (r := c!" ") (b := c!"1") (.go (p := 4) (by decide)) (by decide) (by decide) (by decide)
      (apart_char (c := ' ') rfl (by decide) (by decide)) (source_up 4 3 (by decide) x) (source_up 5 2 (by decide) one)
  have hi : Insertable Char.isAlpha c!"$x + 1" _ := ⟨source_up 1 3 (by decide) s, by decide +kernel, by decide +kernel, by decide +kernel⟩
  have hq : NotQuoted c!"see " := by
    intro u
    constructor <;> (intro h; have := congrArg List.getLast? h; simp at this)
  have hqa : NotQuoted c!"so it is" := by
    intro u
    constructor <;> (intro h; have := congrArg List.getLast? h; simp at this)
  have hx : Assignment Char.isAlpha c!"$i, $v := " := .two c!"i" c!", " c!"v" c!" " c!" " ⟨by decide, by decide⟩ (by unfold Separators; decide) ⟨by decide, by decide⟩ (by unfold Separators; decide) (by decide)
  have hact : Action c!"so it is" := ⟨by decide, by decide, by decide, by rintro _ ⟨⟩; rfl, by rintro _ ⟨⟩; rfl⟩
  have hb : NoClosing (c!" " ++ (c!"so it is" ++ (c!" " ++ ';' :: c!" end"))) := by
    intro u v h
    exact absurd (show ')' ∈ c!" " ++ (c!"so it is" ++ (c!" " ++ ';' :: c!" end")) by rw [h]; simp) (by decide)
  obtain ⟨code, h1, h2⟩ := C118_single_partial Char.isAlpha signLetters_alpha _ (parserOf_singles _ otherOrders otherOrders_some .warning) (a := c!"see ") (g := c!" ") (w := [])
    (k := c!" ") (u := c!" ") (b := c!" end") (m := c!"range") (r := (c!"-", c!"-", c!"")) (by decide) (notCommented_text (by decide)) hq (by decide) (by decide) (by decide) (by decide) hx hi (by decide)
    (by decide) hact (by decide) hqa (by decide) (by decide) (by decide) hb rfl (by unfold NoOtherSign; decide +kernel) (by decide +kernel) (by unfold RazorAllowed; decide +kernel)
  refine ⟨code, h1, ?_⟩
  have e : ∀ code : Text, wordCode (c!"range" ++ ' ' :: (c!"$i, $v := " ++ code)) c!"-" c!"" ++ (c!"so it is" ++ (wordCode c!"end" c!"-" c!"" ++ c!" end")) =
      c!"{{- range $i, $v := " ++ (code ++ c!" }}so it is{{- end }} end") := by simp [wordCode]
  rw [e] at h2
  exact h2

example : applyRazor Char.isAlpha (parserOf Char.isAlpha otherOrders .warning) defaultDelims c!"see @-range ($i, $v := $x + 1) so it is ; end" =
    c!"see {{- range $i, $v := add $x 1 }}so it is{{- end }} end" := by
  decide +kernel

/-- A parenthesis in the action: the expression goes up to it, and the code is not valid. -/
theorem C118_not_alone : applyRazor Char.isAlpha (parserOf Char.isAlpha otherOrders .warning) defaultDelims c!"@if ($a + 1) so (it) is;" = c!"{{ if $a + 1) so (it }}is{{ end }}" ∧
    parsePipeline c!"$a + 1) so (it" = none := by
  decide +kernel

/-- A semicolon in the action: the action ends at it. -/
theorem C118_not_semicolon : applyRazor Char.isAlpha (parserOf Char.isAlpha otherOrders .warning) defaultDelims c!"@if ($a) so; it is;" = c!"{{ if $a }}so{{ end }} it is;" := by
  decide +kernel

end Verif.Props
