import Verif.Lemmas.RazorWordSteps
import Verif.Props.RazorName
/-!
# C108 Else and end in a razor template
-/

namespace Verif.Props
open Verif Regex Spec Engine Razor Lemmas Table

/-- **C108.** A text where every razor delimiter is before a variable, an `else` or an `end`: each of them is replaced by its code, and nothing else changes.
It is partial: the texts where a keyword is at the end of an e-mail address, the `else if (`, the code between quotes and what `C91_variables_partial`
leaves out are not covered. -/
theorem C108_statements_partial (letter : Char → Bool) (hl : PlainLetters letter) (parser : Replacement → Text → Text) (s t : Text)
    (h : Statements letter s t) (hs : NoOtherSign s) (hz : RazorAllowed s) : applyRazor letter parser defaultDelims s = t := by
  by_cases hat : '@' ∈ s
  · obtain ⟨s1, s2, h⟩ := statements_steps h
    have hv := steps_variables hl h
    unfold applyRazor translateBy
    rw [if_pos (isRazor_of hat hz), first_rules parser (fun hi => hs ['`'] (by decide) (singleton_infix hi)), split_rules 2 41,
      rules_before_else hl parser (steps_source h) hs, split_rules 43 1, rule_else hl parser h, split_rules 44 1, rule_fin hl parser h, split_rules 45 86,
      rules_between hl parser (variables_source hv), split_rules 131 4, rule_name hl parser hv]
    refine rules_after hl parser hv (fun f hf hi => noLater_of hs f hf ?_)
    exact steps_later hl hf h [] (fun _ h => h) hi
  · cases h with
    | plain =>
      unfold applyRazor
      rw [if_neg]
      intro hr
      simp only [Content.isRazor, Bool.and_eq_true] at hr
      exact hat ((Text.contains_iff.mp hr.1.1).subset (by decide))
    | var => simp at hat
    | els => simp at hat
    | fin => simp at hat

theorem notCommented_nil : NotCommented [] := by
  intro u m w hm _ h
  have : ∀ m ∈ commentSigns, m ≠ [] := by decide
  simp only [List.nil_eq, List.append_eq_nil_iff] at h
  exact this m hm h.2.1

theorem notCommented_text {a : Text} (h : '#' ∉ a ∧ '/' ∉ a) : NotCommented a := by
  have := notCommented_front h notCommented_nil
  rwa [List.append_nil] at this

theorem notQuoted_line (a : Text) : NotQuoted (a ++ ['\n']) := by
  intro u
  constructor <;> (intro h; have := congrArg List.getLast? h; simp at this)

theorem line_next (letter : Char → Bool) (hl : PlainLetters letter) (e : Text) : NotHost letter ('\n' :: e) ∧ NotIf ('\n' :: e) := by
  constructor
  · intro f c e' hf _ h
    cases f with
    | nil => simp at h
    | cons d f =>
      simp only [List.cons_append, List.cons.injEq] at h
      have := hf d (List.mem_cons_self ..)
      rw [← h.1] at this
      unfold hostChar varChar at this
      rw [hl.1 _ (by decide)] at this
      exact absurd this (by decide)
  · intro w v e' hw _ h
    cases w with
    | nil => simp at h
    | cons d f =>
      simp only [List.cons_append, List.cons.injEq] at h
      have := hw d (List.mem_cons_self ..)
      rw [← h.1] at this
      exact absurd this (by decide)

/-- The lines of a condition. -/
example : Statements Char.isAlpha c!"yes\n@else\nno \"@-$user\"\n@--end range ;\nafter" c!"yes\n{{ else }}\nno \"{{- $user }}\"\n{{- end -}}\nafter" := by
  refine .els c!"yes\n" _ _ ([], [], []) (by decide) (notCommented_text (by decide)) (notQuoted_line c!"yes") (by decide) (line_next _ alpha_plain _).1
    (line_next _ alpha_plain _).2 ?_
  refine .var c!"\nno \"" c!"-$user" _ c!"\"\n@--end range ;\nafter" _ _ (by decide) (notCommented_quote c!"\nno ")
    (.local (c!"-", c!"-", []) c!"$user" (by decide) (by decide) ⟨_, rfl, by decide⟩) (ends_quote _).1 (by decide) (ends_quote _).2 ?_
  refine .fin c!"\"\n" c!" range ;\nafter" c!"\nafter" _ (c!"--", c!"-", c!"-") (by decide) (notCommented_text (by decide)) (notQuoted_line c!"\"") (by decide) ?_
    ⟨c!" ", c!"range ;\nafter", c!" ;\nafter", rfl, by decide, by rintro _ ⟨⟩; decide, .word c!"range" _ (by decide), .inl ⟨c!" ", by decide, rfl⟩⟩ (.plain _ (by decide))
  intro f c e hf _ h
  cases f with
  | nil => simp at h
  | cons d f =>
    simp only [List.cons_append, List.cons.injEq] at h
    exact absurd (hf d (List.mem_cons_self ..)) (by rw [← h.1]; decide)

example : NoOtherSign c!"yes\n@else\nno \"@-$user\"\n@--end range ;\nafter" ∧ RazorAllowed c!"yes\n@else\nno \"@-$user\"\n@--end range ;\nafter" := by
  unfold NoOtherSign RazorAllowed
  decide +kernel

/-- The code for any of the signs; what follows an `else` is kept, the blanks and the word that follow an `end` are not. -/
theorem C108_one_partial (letter : Char → Bool) (hl : PlainLetters letter) (parser : Replacement → Text → Text) (a b b' : Text) (r : Text × Text × Text)
    (hr : r ∈ reduceSigns) (ha : '@' ∉ a) (hc : NotCommented a) (hq : NotQuoted a) (hb : '@' ∉ b) (hh : NotHost letter b) :
    (NotIf b → NoOtherSign (a ++ '@' :: (r.1 ++ (c!"else" ++ b))) → RazorAllowed (a ++ '@' :: (r.1 ++ (c!"else" ++ b))) →
      applyRazor letter parser defaultDelims (a ++ '@' :: (r.1 ++ (c!"else" ++ b))) = a ++ (wordCode c!"else" r.2.1 r.2.2 ++ b)) ∧
    (Closes b b' → NoOtherSign (a ++ '@' :: (r.1 ++ (c!"end" ++ b))) → RazorAllowed (a ++ '@' :: (r.1 ++ (c!"end" ++ b))) →
      applyRazor letter parser defaultDelims (a ++ '@' :: (r.1 ++ (c!"end" ++ b))) = a ++ (wordCode c!"end" r.2.1 r.2.2 ++ b')) := by
  refine ⟨fun hi hs hz => ?_, fun hcl hs hz => ?_⟩
  · exact C108_statements_partial letter hl parser _ _ (.els a b b r ha hc hq hr hh hi (.plain b hb)) hs hz
  · refine C108_statements_partial letter hl parser _ _ (.fin a b b' b' r ha hc hq hr hh hcl (.plain b' (fun h => hb ?_))) hs hz
    obtain ⟨w, _, rfl, _⟩ := closes_dropped hcl
    exact List.mem_append_right _ h

/-- After an `end`, a word that begins like one of the keywords loses its beginning, a text loses the blanks that precede it. After an `else`, the rest
of a word is kept. -/
theorem C108_not_kept :
    applyRazor Char.isAlpha (fun _ m => m) defaultDelims c!"@end without" = c!"{{ end }}out" ∧
    applyRazor Char.isAlpha (fun _ m => m) defaultDelims c!"@end format" = c!"{{ end }}mat" ∧
    applyRazor Char.isAlpha (fun _ m => m) defaultDelims c!"@end text" = c!"{{ end }}text" ∧
    applyRazor Char.isAlpha (fun _ m => m) defaultDelims c!"@-elsewhere" = c!"{{- else }}where" := by
  refine ⟨?_, ?_, ?_, ?_⟩
  · rw [applyRazor_onTable _ _ (by decide +kernel)]
    decide +kernel
  · rw [applyRazor_onTable _ _ (by decide +kernel)]
    decide +kernel
  · rw [applyRazor_onTable _ _ (by decide +kernel)]
    decide +kernel
  · rw [applyRazor_onTable _ _ (by decide +kernel)]
    decide +kernel

end Verif.Props
