import Verif.Lemmas.RazorEngine
import Verif.Lemmas.RegexOrder
/-!
# C88 Lines without razor code survive the translation
-/

namespace Verif.Props
open Verif Regex Spec Engine Razor Lemmas Table

/-- The search of an expression at a position succeeds exactly when some text at this position is matched, and what it finds is matched. -/
theorem C88_search (letter : Char → Bool) (r : Re) (p : Option Char) (s : Text) :
    ((∃ n caps, matchAt letter r p s = some (n, caps)) ↔ ∃ x q caps, s = x ++ q ∧ Fit letter r p x q [] caps) ∧
    ∀ n caps, matchAt letter r p s = some (n, caps) → Fit letter r p (s.take n) (s.drop n) [] caps := by
  have hs : ∀ n caps, matchAt letter r p s = some (n, caps) → s = s.take n ++ s.drop n ∧ Fit letter r p (s.take n) (s.drop n) [] caps := by
    intro n caps h
    obtain ⟨x, q, rfl, hf, rfl⟩ := matchAt_sound h
    simp [hf]
  refine ⟨⟨?_, ?_⟩, fun n caps h => (hs n caps h).2⟩
  · rintro ⟨n, caps, h⟩
    exact ⟨_, _, _, hs n caps h⟩
  · rintro ⟨x, q, caps, rfl, hf⟩
    exact matchAt_complete hf

example : matchAt (fun _ => false) (.seq (lit 'a') (.star true (lit 'b'))) none (T "abbc") = some (3, []) := by decide

/-- A rule is applied as `Replaced` says: from left to right, the preferred match at each position; there is no other result. -/
theorem C88_replaced (letter : Char → Bool) (r : Re) (out : Text → Caps → Text) (s s' : Text) :
    Replaced letter r out none s s' ↔ s' = replaceRe letter r out s := by
  constructor
  · exact fun h => replaced_unique h (replaceRe_replaced letter r out s)
  · rintro rfl
    exact replaceRe_replaced letter r out s

example : ends (fun _ => false) (.star true (.alt (lit 'a') (.seq (lit 'a') (lit 'b')))) (none, c!"aab", []) =
    [(some 'a', c!"b", []), (some 'b', [], []), (some 'a', c!"ab", []), (none, c!"aab", [])] := by decide

/-- The expressions of all the rules are valid: the first razor template does not make the program panic. -/
theorem C88_compiles : ∀ r ∈ generate defaultDelims, ∃ e, parse r.expr = some e := by
  intro r hr
  have hr' : r ∈ ((generate defaultDelims).drop 0).take 165 := by
    rw [List.drop_zero, ← generate_length, List.take_length]
    exact hr
  obtain ⟨e, _, he⟩ := rules_compiled 0 165 r hr'
  exact ⟨e.2.2.2, he.2.2.2⟩

/-- No rule matches the empty text, so that what `Replaced` leaves out does not matter. -/
theorem C88_nonempty (letter : Char → Bool) : ∀ r ∈ generate defaultDelims, ∀ e, parse r.expr = some e → ∀ p q c c', ¬ Fit letter e p [] q c c' := by
  intro r hr e he p q c c' hf
  have hr' : r ∈ ((generate defaultDelims).drop 0).take 165 := by
    rw [List.drop_zero, ← generate_length, List.take_length]
    exact hr
  obtain ⟨e', hmem, hc⟩ := rules_compiled 0 165 r hr'
  have hn : ∀ e ∈ (table.drop 0).take 165, nullable e.2.2.2 = false := by decide +kernel
  have h1 := hn e' hmem
  rw [hc.2.2.2] at he
  cases he
  rw [nullable_sound hf rfl] at h1
  cases h1

theorem translate_keeps {letter : Char → Bool} (hl : letter '\n' = false) (parser : Replacement → Text → Text) {s : Text} (hb : '`' ∉ s) :
    Keeps s (translateBy letter parser (generate defaultDelims) s) := by
  have hsplit : generate defaultDelims = ((generate defaultDelims).drop 0).take 2 ++ ((generate defaultDelims).drop 2).take 163 := by
    have h : ((generate defaultDelims).drop 2).take 163 = (generate defaultDelims).drop 2 := by
      rw [List.take_of_length_le]
      simp [generate_length]
    rw [h, List.drop_zero, List.take_append_drop]
  have hfirst : ∀ r ∈ ((generate defaultDelims).drop 0).take 2, applyRule letter parser s r = s := by
    intro r hr
    obtain ⟨e, he, hc⟩ := rules_compiled 0 2 r hr
    have hn : ∀ e ∈ (table.drop 0).take 2, needs ['`'] e.2.2.2 = true := by decide +kernel
    exact rule_idle parser hc (hn e he) (fun hi => hb (hi.subset (List.mem_singleton.mpr rfl)))
  unfold translateBy
  rw [hsplit, List.foldl_append, foldl_idle parser _ hfirst]
  refine (foldl_keeps hl parser _ ?_ s).trans (replaceAll_keeps (m := callMark) (by decide) (by decide +kernel) (by decide) [] _ _ (Nat.le_refl _))
  intro r hr
  obtain ⟨e, he, hc⟩ := rules_compiled 2 163 r hr
  exact ⟨e, hc, table_keeps e he⟩

/-- **C88.** Whatever the functions that translate expressions do, every ordinary line of a content without backtick is found unchanged, in the
same order, in the template that razor makes of it. -/
theorem C88_lines (letter : Char → Bool) (hl : letter '\n' = false) (parser : Replacement → Text → Text) (s : Text) (hb : '`' ∉ s) :
    (ordinaryLines s).Sublist (Text.splitC '\n' (applyRazor letter parser defaultDelims s)) := by
  unfold applyRazor
  split
  · have h := translate_keeps hl parser hb []
    rw [List.nil_append, List.nil_append] at h
    generalize translateBy letter parser (generate defaultDelims) s = t at h ⊢
    exact h.trans List.filter_sublist
  · exact List.filter_sublist

/-- In particular an ordinary line stays a line of the template. -/
theorem C88_line (letter : Char → Bool) (hl : letter '\n' = false) (parser : Replacement → Text → Text) (s : Text) (hb : '`' ∉ s) (l : Text)
    (h : l ∈ Text.splitC '\n' s) (ho : OrdinaryLine l) : l ∈ Text.splitC '\n' (applyRazor letter parser defaultDelims s) :=
  (C88_lines letter hl parser s hb).subset (List.mem_filter.mpr ⟨h, ordinaryLine_iff.mpr ho⟩)

example : ordinaryLines c!"key: \"value\"\n@name\nif (a[0] == {b}) # c" = [c!"key: \"value\"", c!"if (a[0] == {b}) # c"] := by decide +kernel

/-- A line that ends a comment is not ordinary, and it is changed although it has no razor delimiter. -/
theorem C88_not_comment : applyRazor Char.isAlpha (fun _ m => m) defaultDelims c!"@/* a\nb */ c" = c!"{{/* a\nb */}} c" := by
  rw [applyRazor_onTable _ _ (by decide +kernel)]
  decide +kernel

end Verif.Props
