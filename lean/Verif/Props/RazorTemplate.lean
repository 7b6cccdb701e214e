import Verif.Props.RazorCall
import Verif.Props.RazorIndexed
import Verif.Props.RazorParts
import Verif.Props.RazorSingle
import Verif.Spec.RazorTemplateSpec
/-!
# C117: razor templates
-/

namespace Verif.Props
open Verif Regex Spec Engine Razor Lemmas _root_.Verif.Insert

/-- One part. -/
theorem C117_part_partial (letter : Char → Bool) (hl : SignLetters letter) (mode : Razor.Validation) (parser : Replacement → Text → Text) (hp : Parses letter parser)
    (ha : Assigns letter mode parser) (hi : Slices letter parser) (hc : Calls letter parser) (hg : Singles letter parser) (l : Text) (h : IsRazorPart letter l) (hz : RazorAllowed l) :
    RazorPart letter (checkOf mode) (fun operations code => parsePipeline code = some operations) l (applyRazor letter parser defaultDelims l) := by
  obtain ⟨out, h⟩ := h
  cases h with
  | ordinary _ h =>
    rw [no_razor parser h]
    exact .ordinary l h
  | names _ _ h hs =>
    rw [C91_variables_partial letter hl.1 parser l out h hs hz]
    exact .names l out h hs
  | blocks _ l' _ hlo h hs hb hm => exact .blocks l l' _ hlo (C113_loops_partial letter hl mode parser hp ha l l' ⟨out, h⟩ hlo hs hb hm hz) hs hb hm
  | index a name i f b b' c r es h1 h2 h3 h4 h5 h6 h7 h8 h9 h10 _ =>
    obtain ⟨code, g1, g2⟩ := C115_index_partial letter hl parser hi h1 h2 h3 h4 h5 h6 h7 h8 h9 h10 hz
    rw [g2]
    exact .index a name i f b b' code r es h1 h2 h3 h4 h5 h6 h7 h8 h9 h10 g1
  | call a name z b b' c r e h1 h2 h3 h4 h5 h6 h7 h8 h9 h10 h11 h12 _ =>
    obtain ⟨code, g1, g2⟩ := C116_call_partial letter hl parser hc h1 h2 h3 h4 h5 h6 h7 h8 h9 h10 h11 h12 hz
    rw [g2]
    exact .call a name z b b' code r e h1 h2 h3 h4 h5 h6 h7 h8 h9 h10 h11 h12 g1
  | single a m g w x s k action u b c r e h1 h2 h3 h4 h5 h6 h7 h8 h9 h10 h11 h12 h13 h14 h15 h16 h17 h18 h19 h20 _ =>
    obtain ⟨code, g1, g2⟩ := C118_single_partial letter hl parser hg h1 h2 h3 h4 h5 h6 h7 h8 h9 h10 h11 h12 h13 h14 h15 h16 h17 h18 rfl h19 h20 hz
    rw [g2]
    exact .single a m g w x s k action u b code r e h1 h2 h3 h4 h5 h6 h7 h8 h9 h10 h11 h12 h13 h14 h15 h16 h17 h18 h19 h20 g1

/-- C117. A razor template made of any number of parts, one under the other: each part is translated as it is alone, and each expression of it becomes a code with the
same operations, whatever the order of the maps. Missing: comments over several lines, backticks, `autoWrap`, lines with several indices or calls, and the expressions
of other kinds (see `RazorPart`). -/
theorem C117_template_partial (letter : Char → Bool) (hl : SignLetters letter) (mode : Razor.Validation) (parser : Replacement → Text → Text) (hp : Parses letter parser)
    (ha : Assigns letter mode parser) (hi : Slices letter parser) (hc : Calls letter parser) (hg : Singles letter parser) (ls : List Text) (h : ∀ l ∈ ls, IsRazorPart letter l) (hpart : ∀ l ∈ ls, Spec.Part l)
    (hm : ∀ l ∈ ls.tail, PlainFirst l) (ho : ∀ l ∈ ls, '@' ∈ l ∨ OrdinaryLine l) (hz : RazorAllowed (Text.join ['\n'] ls)) :
    ∃ ps : List (Text × Text), ps.map (·.1) = ls ∧ applyRazor letter parser defaultDelims (Text.join ['\n'] ls) = Text.join ['\n'] (ps.map (·.2)) ∧
      ∀ p ∈ ps, RazorPart letter (checkOf mode) (fun operations code => parsePipeline code = some operations) p.1 p.2 := by
  refine ⟨ls.map fun l => (l, applyRazor letter parser defaultDelims l), by rw [List.map_map]; exact List.map_id ls, ?_, fun p hp' => ?_⟩
  · rw [C114_parts_partial letter (hl.1.1 _ (by decide)) parser ls hpart hm ho hz, List.map_map]
    rfl
  · obtain ⟨l, hl', rfl⟩ := List.mem_map.mp hp'
    exact C117_part_partial letter hl mode parser hp ha hi hc hg l (h l hl') ⟨fun hi => hz.1 (hi.trans (join_infix hl')), fun hi => hz.2 (hi.trans (join_infix hl'))⟩

/-- Variables, a line without delimiter, an index, a call, a condition of a single line and a loop. -/
def sampleParts : List Text := [c!"Dear \"@user_1\", \"@--$item.city\"", c!"key: value", c!"see @list[1]", c!"call @g(2)", c!"@if ($v) so it is;", c!"@for ($w := $v)\n -\n@end\n"]

theorem sample_parts : ∀ l ∈ sampleParts, IsRazorPart Char.isAlpha l := by
  have ins : ∀ {s e}, s ∈ [c!"1", c!"2", c!"g(2)", c!"$v"] → ExprText Char.isAlpha 7 s e → Insertable Char.isAlpha s e := fun {s e} hs h =>
    ⟨source_up 1 6 (by decide) h, (by decide +kernel : ∀ s ∈ [c!"1", c!"2", c!"g(2)", c!"$v"], ∀ w ∈ markWords, ¬ w <:+: s) s hs,
      (by decide +kernel : ∀ s ∈ [c!"1", c!"2", c!"g(2)", c!"$v"], ¬ c!":=" <:+: s) s hs, (by decide +kernel : ∀ s ∈ [c!"1", c!"2", c!"g(2)", c!"$v"], ¬ c!"slice" <:+: s) s hs⟩
  have number : ∀ {s}, s ∈ [c!"1", c!"2"] → ExprText Char.isAlpha 7 s (.lit s) := fun {s} hs =>
    .number ((by decide : ∀ s ∈ [c!"1", c!"2"], s ≠ []) s hs) ((by decide : ∀ s ∈ [c!"1", c!"2"], ∀ c ∈ s, c.isDigit = true) s hs)
  have k : ∀ a : Text, a = [] ∨ a.getLast? = some '\n' ∨ a.getLast? = some ' ' → NotQuoted a := by
    intro a ha u
    constructor <;> (rintro rfl; simp at ha)
  have stay : Remains [] [] := .inr ⟨rfl, fun w e _ h => by simp at h⟩
  intro l h
  simp only [sampleParts, List.mem_cons, List.not_mem_nil, or_false] at h
  rcases h with rfl | rfl | rfl | rfl | rfl | rfl
  · refine ⟨c!"Dear \"{{ $.user_1 }}\", \"{{- $item.city -}}\"", .names _ _ ?_ (by unfold NoOtherSign; decide +kernel)⟩
    exact .var c!"Dear \"" c!"user_1" _ c!"\", \"@--$item.city\"" _ _ (by decide) (notCommented_quote c!"Dear ")
      (printed_name ⟨⟨'u', _, rfl, by decide⟩, by decide, by decide, by decide, by decide⟩) (ends_quote _).1 (by decide) (ends_quote _).2
      (.var c!"\", \"" c!"--$item.city" _ c!"\"" _ _ (by decide) (notCommented_quote c!"\", ")
        (.local (c!"--", c!"-", c!"-") c!"$item.city" (by decide) (by decide) ⟨_, rfl, by decide⟩) (ends_quote _).1 (by decide) (ends_quote _).2
        (.plain _ (by decide)))
  · exact ⟨_, .ordinary _ (by decide)⟩
  · have hi : IndexText Char.isAlpha c!"1" c!"extract" _ := .elements [(c!"1", .lit c!"1")] (by simp) (by
      intro p hp
      cases List.mem_singleton.mp hp
      exact ⟨ins (by decide) (number (by decide)), by decide, by decide⟩)
    exact ⟨_, .index c!"see " c!"list" c!"1" _ [] [] [] ([], [], []) _ (by decide) (notCommented_text (by decide)) (k _ (by decide)) (by decide)
      ⟨⟨'l', c!"ist", rfl, by decide⟩, by decide, by decide, by decide, by decide⟩ hi (by decide) (by intro u v h; simp at h) stay (by unfold NoOtherSign; decide +kernel) trivial⟩
  · have f : ExprText Char.isAlpha 7 c!"g(2)" _ := .call (n := c!"g") [⟨[], c!"2", [], .lit c!"2"⟩]
      (.global _ _ (by decide) (by decide) (by decide +kernel)) (by decide) (by decide) (by
        intro a ha
        cases List.mem_singleton.mp ha
        exact source_up 1 6 (by decide) (number (by decide)))
    exact ⟨_, .call c!"call " c!"g" c!"2" [] [] [] ([], [], []) _ (by decide) (notCommented_text (by decide)) (k _ (by decide)) (by decide)
      ⟨⟨'g', c!"", rfl, by decide⟩, by decide, by decide, by decide, by decide⟩ (by decide) (ins (by decide) f) (by decide) (by intro u v h; simp at h) stay
      (by unfold NoOtherSign; decide +kernel) (by decide +kernel) trivial⟩
  · have x : ExprText Char.isAlpha 7 c!"$v" (.ident (.loc c!"v")) := .variable (.loc c!"v") (.local _ (by decide)) (.inr (by decide)) (by decide +kernel)
    have q : NotQuoted c!"so it is" := by
      intro u
      constructor <;> (intro h; have := congrArg List.getLast? h; simp at this)
    exact ⟨_, .single [] c!"if" c!" " [] [] c!"$v" c!" " c!"so it is" [] [] [] ([], [], []) _ (by decide) (notCommented_text (by decide)) (k _ (by decide)) (by decide) (by decide)
      (by decide) (by decide) .none (ins (by decide) x) (by decide) (by decide) ⟨by decide, by decide, by decide, by rintro _ ⟨⟩; rfl, by rintro _ ⟨⟩; rfl⟩ (by decide) q (by decide)
      (by decide) (by decide) (by
        intro u v h
        exact absurd (show ')' ∈ c!" " ++ (c!"so it is" ++ ([] ++ ';' :: [])) by rw [h]; simp) (by decide)) (by unfold NoOtherSign; decide +kernel) (by decide +kernel) trivial⟩
  · have n : NotLoop c!"end\n" := by
      intro r m g y hr hm _ he
      have : r.1.head? = none ∨ r.1.head? = some '-' ∨ r.1.head? = some '_' := (by decide : ∀ r ∈ reduceSigns, r.1.head? = none ∨ r.1.head? = some '-' ∨ r.1.head? = some '_') r hr
      have he := congrArg List.head? he
      cases hm <;> rcases this with h | h | h <;> rw [List.head?_append, h] at he <;> simp at he
    have x : ExprText Char.isAlpha 7 c!"$v" (.ident (.loc c!"v")) := .variable (.loc c!"v") (.local _ (by decide)) (.inr (by decide)) (by decide +kernel)
    have b1 : Blocks Char.isAlpha none (fun _ _ => True) false c!"\n -\n@end\n" _ :=
      .fin false c!"\n -\n" c!"\n" c!"\n" _ ([], [], []) (by decide) (notCommented_text (by decide)) (k _ (by decide)) (by decide) (by decide) (notHost_line signLetters_alpha.1 _)
        (closes_line _) (.plain _ _ (by decide))
    exact ⟨_, .blocks _ c!"@range($w := $v)\n -\n@end\n" _ (.loop [] c!"for" c!" " _ _ ([], [], []) (by decide) (by decide) .short (by decide)
        (.other c!"$w := $v)\n -\n" _ _ (by decide) n (.plain _ (by decide))))
      (.command true [] c!"range" [] [] c!"$w := " c!"$v" [] [] _ _ _ ([], [], []) (by decide) (notCommented_text (by decide)) (k _ (by decide)) (by decide)
        (by decide) (.word _ (by decide)) (by decide) (by decide) (.one c!"w" c!" " c!" " ⟨by decide, by decide⟩ (by unfold Separators; decide) (by decide)) (ins (by decide) x)
        (by decide) trivial (by decide) (by decide) b1)
      (by unfold NoOtherSign; decide +kernel) (by decide +kernel) (by decide)⟩

example : (∀ l ∈ sampleParts, IsRazorPart Char.isAlpha l) ∧ (∀ l ∈ sampleParts, Spec.Part l) ∧ (∀ l ∈ sampleParts.tail, PlainFirst l) ∧
    (∀ l ∈ sampleParts, '@' ∈ l ∨ OrdinaryLine l) ∧ RazorAllowed (Text.join ['\n'] sampleParts) := by
  refine ⟨sample_parts, by unfold Spec.Part; decide +kernel, fun l hl => noMail_test ?_, fun l hl => ?_, by unfold RazorAllowed; decide +kernel⟩
  · exact (by decide +kernel : ∀ l ∈ sampleParts.tail, '@' ∉ l ∨ (l.takeWhile (· ≠ '@') = []) ∨ (l.takeWhile (· ≠ '@')).any (fun c => !mailChar c) = true) l hl
  · rcases (by decide +kernel : ∀ l ∈ sampleParts, '@' ∈ l ∨ ordinaryLine l = true) l hl with h | h
    · exact .inl h
    · exact .inr (ordinaryLine_iff.mp h)

example : applyRazor Char.isAlpha (parserOf Char.isAlpha otherOrders .strict) defaultDelims (Text.join ['\n'] sampleParts) =
    c!"Dear \"{{ $.user_1 }}\", \"{{- $item.city -}}\"\nkey: value\nsee {{ extract $.list 1 }}\ncall {{ g 2 }}\n{{ if $v }}so it is{{ end }}\n{{ range $w := $v }}\n -\n{{ end }}\n" := by
  decide +kernel

/-- Two calls on one line, which is not covered. -/
example : applyRazor Char.isAlpha (parserOf Char.isAlpha otherOrders .strict) defaultDelims c!"see @g(1) and @h(2)" = c!"see {{ g 1 }} and {{ h 2 }}" := by
  decide +kernel

end Verif.Props
