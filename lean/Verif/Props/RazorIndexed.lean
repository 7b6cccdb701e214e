import Verif.Lemmas.RazorSliceSteps
import Verif.Props.RazorParen
/-!
# C115: indices in a razor text
-/

namespace Verif.Props
open Spec Engine Razor Lemmas Table _root_.Verif.Insert

/-- `@name[…]` becomes the code of a call of `slice` or of `extract`, on the variable and on the bounds or the indices that are between the brackets. The rest of the text
is left as it is. Missing: spaces next to the commas and the colon, brackets and braces between the brackets, names with dots, a closing bracket later on the line,
and the texts with several razor expressions (see C114 for those on other lines). -/
theorem C115_index_partial (letter : Char → Bool) (hl : SignLetters letter) (parser : Replacement → Text → Text) (hp : Slices letter parser) {a name i f b b' : Text}
    {r : Text × Text × Text} {es : List Expr} (ha : '@' ∉ a) (hc : NotCommented a) (hq : NotQuoted a) (hr : r ∈ reduceSigns) (hn : VarName letter name)
    (hi : IndexText letter i f es) (hb : '@' ∉ b) (hnb : NoBracket b) (hrem : Remains b b')
    (hs : NoOtherSign (a ++ '@' :: (r.1 ++ (name ++ '[' :: (i ++ ']' :: b))))) (hz : RazorAllowed (a ++ '@' :: (r.1 ++ (name ++ '[' :: (i ++ ']' :: b))))) :
    ∃ code, parsePipeline code = some (.call (.atom f) (.atom (c!"$." ++ name) :: es.map meaning)) ∧
      applyRazor letter parser defaultDelims (a ++ '@' :: (r.1 ++ (name ++ '[' :: (i ++ ']' :: b)))) = a ++ (wordCode code r.2.1 r.2.2 ++ b') := by
  obtain ⟨l, hne, rfl, hl', hf, hcall⟩ := index_call hl hi
  obtain ⟨hi1, hi2, hi3⟩ := index_line hl hi
  refine ⟨sliceCode f name (itemsDone l), by rw [List.map_map]; exact slice_meaning hl hn hf hne hl', ?_⟩
  have hpart : ∀ {x : Text}, x <:+: a ++ '@' :: (r.1 ++ (name ++ '[' :: (i ++ ']' :: b))) → ∀ f ∈ otherSigns, ¬ f <:+: x := fun hx f hf h => hs f hf (h.trans hx)
  have p1 := hpart (x := a) ⟨[], '@' :: (r.1 ++ (name ++ '[' :: (i ++ ']' :: b))), by simp⟩
  have p2 := hpart (x := name) ⟨a ++ '@' :: r.1, '[' :: (i ++ ']' :: b), by simp⟩
  have p3 := hpart (x := i) ⟨a ++ '@' :: (r.1 ++ (name ++ ['['])), ']' :: b, by simp⟩
  obtain ⟨d, _, hdb, _⟩ := remains_dropped hrem
  have p4 := hpart (x := b') ⟨a ++ '@' :: (r.1 ++ (name ++ '[' :: (i ++ ']' :: d))), [], by rw [hdb]; simp⟩
  have hat : '@' ∈ a ++ '@' :: (r.1 ++ (name ++ '[' :: (i ++ ']' :: b))) := by simp
  have hb' : '@' ∉ b' := fun hm => hb (by rw [hdb]; exact List.mem_append_right _ hm)
  have hsign : ∀ {x : Text}, '@' ∉ x → ¬ c!"@" <:+: x := fun hx h => hx (h.subset (by decide))
  have hfree : ∀ f' ∈ [c!"@", c!"`", c!"\"<<", c!"\"{{", c!"_=!"], ¬ f' <:+: a ++ (wordCode (sliceCode f name (itemsCode l)) r.2.1 r.2.2 ++ b') := by
    intro f' hf'
    rcases List.mem_cons.mp hf' with rfl | h
    · exact slice_free hl (by decide) hr hn hf hl' hq (hsign ha) (hsign hi3) (hsign hb')
    · have ho := (by decide : ∀ f ∈ [c!"`", c!"\"<<", c!"\"{{", c!"_=!"], f ∈ otherSigns) f' h
      exact slice_free hl hf' hr hn hf hl' hq (p1 f' ho) (p3 f' ho) (p4 f' ho)
  unfold applyRazor translateBy
  rw [if_pos (isRazor_of hat hz), first_rules parser (fun hi => hs ['`'] (by decide) (singleton_infix hi)), split_rules 2 101,
    rules_before_slice hl.1 parser hc ha hr hn (by simp [hi3, hb]) hs, split_rules 103 1,
    rule_slice hl hp ha hr hn hi1 hi2 hnb hb hrem hf hl' hcall,
    rules_after_slice parser (fun hm => hfree _ (by decide) (singleton_infix hm)) (fun f hf => hfree f (List.mem_cons_of_mem _ hf))]
  exact slice_marks hl hr hf hl' (p1 _ (by decide)) (p2 _ (by decide)) (p4 _ (by decide))

/-- An element and the next one, and a semicolon that is dropped. -/
example : ∃ code, parsePipeline code = some (.call (.atom c!"extract") [.atom c!"$.list", .atom c!"1", .call (.atom c!"add") [.atom c!"$x", .atom c!"1"]]) ∧
    applyRazor Char.isAlpha (parserOf Char.isAlpha otherOrders .warning) defaultDelims c!"see @--list[1,$x + 1]; end" = c!"see {{- " ++ (code ++ c!" -}} end") := by
  have x : ExprText Char.isAlpha 7 c!"$x" (.ident (.loc c!"x")) := .variable (.loc c!"x") (.local _ (by decide)) (.inr (by decide)) (by decide +kernel)
  have one : ExprText Char.isAlpha 7 c!"1" (.lit c!"1") := .number (by decide) (by decide)
  have u : ExprText Char.isAlpha 4 c!"$x + 1" _ :=
    .binary (a := c!"$x") (l := c!" ") (x := c!"+") (r := c!" ") (b := c!"1") (.go (p := 4) (by decide)) (by decide) (by decide) (by decide)
      (apart_char (c := ' ') rfl (by decide) (by decide)) (source_up 4 3 (by decide) x) (source_up 5 2 (by decide) one)
  have i1 : IndexItem Char.isAlpha c!"1" (.lit c!"1") := ⟨⟨source_up 1 6 (by decide) one, by decide +kernel, by decide +kernel, by decide +kernel⟩, by decide, by decide⟩
  have i2 : IndexItem Char.isAlpha c!"$x + 1" _ := ⟨⟨source_up 1 3 (by decide) u, by decide +kernel, by decide +kernel, by decide +kernel⟩, by decide, by decide⟩
  have hi : IndexText Char.isAlpha c!"1,$x + 1" c!"extract" _ := .elements [(c!"1", _), (c!"$x + 1", _)] (by simp) (by
    intro p hp
    simp only [List.mem_cons, List.not_mem_nil, or_false] at hp
    rcases hp with rfl | rfl
    · exact i1
    · exact i2)
  have k : NotQuoted c!"see " := by
    intro u
    constructor <;> (intro h; have := congrArg List.getLast? h; simp at this)
  have hn : VarName Char.isAlpha c!"list" := ⟨⟨'l', c!"ist", rfl, by decide⟩, by decide, by decide, by decide, by decide⟩
  have hb : NoBracket c!"; end" := by
    intro u v h
    exact absurd (show ']' ∈ c!"; end" by rw [h]; simp) (by decide)
  obtain ⟨code, h1, h2⟩ := C115_index_partial Char.isAlpha signLetters_alpha _ (parserOf_slices _ otherOrders otherOrders_some .warning) (a := c!"see ") (b := c!"; end") (b' := c!" end")
    (r := (c!"--", c!"-", c!"-")) (by decide) (notCommented_text (by decide)) k (by decide) hn hi (by decide) hb (.inl ⟨[], by decide, rfl⟩)
    (by unfold NoOtherSign; decide +kernel) (by unfold RazorAllowed; decide +kernel)
  refine ⟨code, h1, ?_⟩
  have e : wordCode code c!"-" c!"-" ++ c!" end" = c!"{{- " ++ (code ++ c!" -}} end") := by simp [wordCode]
  rw [e] at h2
  exact h2

/-- The texts of slices: all the bounds, the last one only, the first one only. -/
example : IndexText Char.isAlpha c!"1:2" c!"slice" [.lit c!"1", .lit c!"2"] ∧ IndexText Char.isAlpha c!":2" c!"slice" [zero, .lit c!"2"] ∧
    IndexText Char.isAlpha c!"1:" c!"slice" [.lit c!"1", minusOne] := by
  have h : ∀ s ∈ [c!"1", c!"2"], IndexItem Char.isAlpha s (.lit s) := fun s hs =>
    ⟨⟨source_up 1 6 (by decide) (.number ((by decide : ∀ s ∈ [c!"1", c!"2"], s ≠ []) s hs) ((by decide : ∀ s ∈ [c!"1", c!"2"], ∀ c ∈ s, c.isDigit = true) s hs)),
      (by decide +kernel : ∀ s ∈ [c!"1", c!"2"], ∀ w ∈ markWords, ¬ w <:+: s) s hs, (by decide : ∀ s ∈ [c!"1", c!"2"], ¬ c!":=" <:+: s) s hs,
      (by decide : ∀ s ∈ [c!"1", c!"2"], ¬ c!"slice" <:+: s) s hs⟩, rfl, (by decide : ∀ s ∈ [c!"1", c!"2"], ∀ c ∈ s, c ∉ ['[', ']', ':', ',', '{']) s hs⟩
  exact ⟨.between (h c!"1" (by decide)) (h c!"2" (by decide)), .upTo (h c!"2" (by decide)), .since (h c!"1" (by decide))⟩

example : applyRazor Char.isAlpha (parserOf Char.isAlpha otherOrders .warning) defaultDelims c!"see @list[-2:] end" = c!"see {{ slice $.list -2 0 }} end" := by
  decide +kernel

/-- Another closing bracket on the line: the index is not translated, it stays in the text after the variable. -/
theorem C115_not_bracket : applyRazor Char.isAlpha (parserOf Char.isAlpha otherOrders .warning) defaultDelims c!"see @list[2:] end [1]" = c!"see {{ $.list }}[2:] end [1]" := by
  decide +kernel

/-- A name with a dot: the function is not the same one. -/
theorem C115_not_dotted : applyRazor Char.isAlpha (parserOf Char.isAlpha otherOrders .warning) defaultDelims c!"see @a.b[1]" = c!"see {{ slice $.a.b 1 }}" := by
  decide +kernel

end Verif.Props
