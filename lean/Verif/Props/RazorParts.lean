import Verif.Lemmas.RazorParts
import Verif.Props.RazorBlock
/-!
# C114: razor translates a text part by part
-/

namespace Verif.Props
open Verif Regex Spec Engine Razor Lemmas _root_.Verif.Insert

theorem part_infix {l t : Text} (h : Part t) (hi : l <:+: t) : Part l :=
  ⟨fun hm => h.1 (hi.subset hm), fun hm => h.2.1 (hm.trans hi), fun hm => h.2.2 (hm.trans hi)⟩

theorem part_append {a b : Text} (ha : Part a) (hb : Part b) : Part (a ++ '\n' :: b) := by
  refine ⟨fun h => ?_, pieces_infix (by decide) ha.2.1 hb.2.1, pieces_infix (by decide) ha.2.2 hb.2.2⟩
  simp only [List.mem_append, List.mem_cons] at h
  rcases h with h | h | h
  · exact ha.1 h
  · cases h
  · exact hb.1 h

theorem first_append {a b : Text} (ha : PlainFirst a) : PlainFirst (a ++ '\n' :: b) := by
  rcases ha with ⟨c, t, rfl, hc⟩ | ha
  · exact .inl ⟨c, _, rfl, hc⟩
  right
  intro w v h hw
  rcases List.append_eq_append_iff.mp h with ⟨x, h1, h2⟩ | ⟨x, h1, h2⟩
  · cases x with
    | nil => simp at h2
    | cons c x =>
      simp only [List.cons_append, List.cons.injEq] at h2
      exact ⟨'\n', by rw [h1, ← h2.1]; simp, by decide⟩
  · cases x with
    | nil => simp at h2
    | cons c x =>
      simp only [List.cons_append, List.cons.injEq] at h2
      exact ha w x (by rw [h1, ← h2.1]) hw

theorem translate_pair {letter : Char → Bool} (hl : letter '\n' = false) (parser : Replacement → Text → Text) {a b : Text} (ha : Part a) (hb : Part b) (hm : PlainFirst b) :
    translateBy letter parser (generate defaultDelims) (a ++ '\n' :: b) =
      translateBy letter parser (generate defaultDelims) a ++ '\n' :: translateBy letter parser (generate defaultDelims) b := by
  have h := part_append ha hb
  unfold translateBy
  rw [first_rules parser h.1, first_rules parser ha.1, first_rules parser hb.1, apart_text hl parser ⟨h.2.1, h.2.2⟩ hm, callMark_lines]

theorem join_two (l l' : Text) (ls : List Text) : Text.join ['\n'] (l :: l' :: ls) = l ++ '\n' :: Text.join ['\n'] (l' :: ls) := by
  simp [Text.join]

theorem join_part {ls : List Text} (h : ∀ l ∈ ls, Part l) : Part (Text.join ['\n'] ls) := by
  induction ls with
  | nil => exact ⟨by decide, by decide, by decide⟩
  | cons l ls ih =>
    cases ls with
    | nil => exact h l (List.mem_singleton.mpr rfl)
    | cons l' ls =>
      rw [join_two]
      exact part_append (h l (List.mem_cons_self ..)) (ih fun x hx => h x (List.mem_cons_of_mem _ hx))

theorem join_noMail {l : Text} {ls : List Text} (h : PlainFirst l) : PlainFirst (Text.join ['\n'] (l :: ls)) := by
  cases ls with
  | nil => exact h
  | cons l' ls =>
    rw [join_two]
    exact first_append h

theorem translate_parts {letter : Char → Bool} (hl : letter '\n' = false) (parser : Replacement → Text → Text) (l : Text) (ls : List Text) (h : ∀ x ∈ l :: ls, Part x)
    (hm : ∀ x ∈ ls, PlainFirst x) : translateBy letter parser (generate defaultDelims) (Text.join ['\n'] (l :: ls)) =
      Text.join ['\n'] ((l :: ls).map (translateBy letter parser (generate defaultDelims))) := by
  induction ls generalizing l with
  | nil => simp only [Text.join, List.map_cons, List.map_nil]
  | cons l' ls ih =>
    have h' : ∀ x ∈ l' :: ls, Part x := fun x hx => h x (List.mem_cons_of_mem _ hx)
    rw [join_two, translate_pair hl parser (h l (List.mem_cons_self ..)) (join_part h') (join_noMail (ls := ls) (hm l' (List.mem_cons_self ..))),
      ih l' h' (fun x hx => hm x (List.mem_cons_of_mem _ hx)), List.map_cons, List.map_cons, List.map_cons, join_two]

theorem translate_ordinary {letter : Char → Bool} (parser : Replacement → Text → Text) {l : Text} (h : OrdinaryLine l) (hp : Part l) :
    translateBy letter parser (generate defaultDelims) l = l := by
  have h1 : ((generate defaultDelims).drop 2).foldl (applyRule letter parser) l = l := by
    have : ((generate defaultDelims).drop 2) = ((generate defaultDelims).drop 2).take 163 := by
      rw [List.take_of_length_le]
      simp [generate_length]
    rw [this]
    exact rules_idle parser 2 163 (c!"/*" :: razorSigns) (by decide +kernel) (fun f hf => by
      rcases List.mem_cons.mp hf with rfl | hf
      · exact hp.2.1
      · exact h f hf)
  unfold translateBy
  rw [first_rules parser hp.1, h1]
  exact replaceAll_free (h callMark (by decide))

theorem no_razor {letter : Char → Bool} (parser : Replacement → Text → Text) {s : Text} (h : '@' ∉ s) : applyRazor letter parser defaultDelims s = s := by
  unfold applyRazor
  rw [if_neg]
  intro hr
  simp only [Content.isRazor, Bool.and_eq_true] at hr
  exact h ((Text.contains_iff.mp hr.1.1).subset (by decide))

theorem join_infix {x : Text} {ls : List Text} (h : x ∈ ls) : x <:+: Text.join ['\n'] ls := by
  induction ls with
  | nil => cases h
  | cons l ls ih =>
    cases ls with
    | nil => rw [List.mem_singleton.mp h]; exact List.infix_refl _
    | cons l' ls =>
      rcases List.mem_cons.mp h with rfl | h
      · exact ⟨[], '\n' :: Text.join ['\n'] (l' :: ls), by rw [join_two]; rfl⟩
      · exact (ih h).trans ⟨l ++ ['\n'], [], by rw [join_two]; simp⟩

theorem join_mem {c : Char} {ls : List Text} (h : c ∈ Text.join ['\n'] ls) : c = '\n' ∨ ∃ l ∈ ls, c ∈ l := by
  induction ls with
  | nil => cases h
  | cons l ls ih =>
    cases ls with
    | nil => exact .inr ⟨l, List.mem_singleton.mpr rfl, h⟩
    | cons l' ls =>
      rw [join_two] at h
      simp only [List.mem_append, List.mem_cons] at h
      rcases h with h | h | h
      · exact .inr ⟨l, List.mem_cons_self .., h⟩
      · exact .inl h
      · rcases ih (by exact h) with h | ⟨x, hx, hc⟩
        · exact .inl h
        · exact .inr ⟨x, List.mem_cons_of_mem _ hx, hc⟩

/-- **C114.** Razor makes of parts put one under the other what it makes of each of them: no rule sees more than one line, but for comments, backticks and `autoWrap`,
when no part but the first begins with a sign and an address. The functions that translate expressions are free. -/
theorem C114_parts_partial (letter : Char → Bool) (hl : letter '\n' = false) (parser : Replacement → Text → Text) (ls : List Text) (h : ∀ l ∈ ls, Part l)
    (hm : ∀ l ∈ ls.tail, PlainFirst l) (ho : ∀ l ∈ ls, '@' ∈ l ∨ OrdinaryLine l) (hz : RazorAllowed (Text.join ['\n'] ls)) :
    applyRazor letter parser defaultDelims (Text.join ['\n'] ls) = Text.join ['\n'] (ls.map (applyRazor letter parser defaultDelims)) := by
  have hz' : ∀ l ∈ ls, RazorAllowed l := fun l hl => ⟨fun hi => hz.1 (hi.trans (join_infix hl)), fun hi => hz.2 (hi.trans (join_infix hl))⟩
  by_cases hat : '@' ∈ Text.join ['\n'] ls
  · have each : ls.map (applyRazor letter parser defaultDelims) = ls.map (translateBy letter parser (generate defaultDelims)) := by
      refine List.map_congr_left fun l hl => ?_
      by_cases ha : '@' ∈ l
      · unfold applyRazor
        rw [if_pos (isRazor_of ha (hz' l hl))]
      · rw [no_razor parser ha]
        exact (translate_ordinary parser ((ho l hl).resolve_left ha) (h l hl)).symm
    rw [each]
    unfold applyRazor
    rw [if_pos (isRazor_of hat hz)]
    cases ls with
    | nil => cases hat
    | cons l ls => exact translate_parts hl parser l ls h hm
  · rw [no_razor parser hat]
    have : ls.map (applyRazor letter parser defaultDelims) = ls.map id :=
      List.map_congr_left fun l hl => no_razor parser (fun hi => hat ((join_infix hl).subset hi))
    rw [this, List.map_id]

/-- C114, line by line: each line of the text is translated alone. -/
theorem C114_lines_partial (letter : Char → Bool) (hl : letter '\n' = false) (parser : Replacement → Text → Text) (s : Text) (h : Part s)
    (hm : ∀ l ∈ (Text.splitC '\n' s).tail, PlainFirst l) (ho : ∀ l ∈ Text.splitC '\n' s, '@' ∈ l ∨ OrdinaryLine l) (hz : RazorAllowed s) :
    applyRazor letter parser defaultDelims s = Text.join ['\n'] ((Text.splitC '\n' s).map (applyRazor letter parser defaultDelims)) := by
  have e := Text.join_splitC '\n' s
  have := C114_parts_partial letter hl parser (Text.splitC '\n' s) (fun l hl => part_infix h (by have := join_infix hl; rwa [e] at this)) hm ho (by rwa [e])
  rwa [e] at this

/-- A test of `NoMailFirst`. -/
theorem noMail_test {l : Text} (h : '@' ∉ l ∨ (l.takeWhile (· ≠ '@') = []) ∨ (l.takeWhile (· ≠ '@')).any (fun c => !mailChar c) = true) : PlainFirst l := by
  right
  rintro w v rfl hw
  by_cases ha : '@' ∈ w
  · exact ⟨'@', ha, by decide⟩
  · have e : (w ++ '@' :: v).takeWhile (· ≠ '@') = w := by
      rw [List.takeWhile_append_of_pos (fun c hc => by
        have : c ≠ '@' := fun hq => ha (hq ▸ hc)
        simpa using this)]
      simp
    rw [e] at h
    rcases h with h | h | h
    · simp at h
    · exact absurd h hw
    · obtain ⟨c, hc, hn⟩ := List.any_eq_true.mp h
      exact ⟨c, hc, by simpa using hn⟩

/-- A command, text with a variable and an address, an ordinary line, and an expression. -/
example : Spec.Part c!"@if ($x)\nHello @name, me@here.com!\nkey: value\n - @(1 + $x)\n@end" ∧
    (∀ l ∈ (Text.splitC '\n' c!"@if ($x)\nHello @name, me@here.com!\nkey: value\n - @(1 + $x)\n@end").tail, PlainFirst l) ∧
    (∀ l ∈ Text.splitC '\n' c!"@if ($x)\nHello @name, me@here.com!\nkey: value\n - @(1 + $x)\n@end", '@' ∈ l ∨ OrdinaryLine l) ∧
    RazorAllowed c!"@if ($x)\nHello @name, me@here.com!\nkey: value\n - @(1 + $x)\n@end" := by
  refine ⟨by unfold Spec.Part; decide +kernel, fun l hl => noMail_test ?_, fun l hl => ?_, by unfold RazorAllowed; decide +kernel⟩
  · exact (by decide +kernel : ∀ l ∈ (Text.splitC '\n' c!"@if ($x)\nHello @name, me@here.com!\nkey: value\n - @(1 + $x)\n@end").tail,
      '@' ∉ l ∨ (l.takeWhile (· ≠ '@') = []) ∨ (l.takeWhile (· ≠ '@')).any (fun c => !mailChar c) = true) l hl
  · rcases (by decide +kernel : ∀ l ∈ Text.splitC '\n' c!"@if ($x)\nHello @name, me@here.com!\nkey: value\n - @(1 + $x)\n@end", '@' ∈ l ∨ ordinaryLine l = true) l hl with h | h
    · exact .inl h
    · exact .inr (ordinaryLine_iff.mp h)

/-- A line that begins with an address. -/
example : PlainFirst c!"me@here.com" := .inl ⟨'m', _, rfl, by decide⟩

/-- What the lines of this text become. -/
example : applyRazor Char.isAlpha (parserOf Char.isAlpha otherOrders .strict) defaultDelims c!"@if ($x)\nHello @name, me@here.com!\nkey: value\n - @(1 + $x)\n@end" =
    c!"{{ if $x }}\nHello {{ $.name }}, me@here.com!\nkey: value\n - {{ add 1 $x }}\n{{ end }}" := by
  decide +kernel

/-- C114 fails for a comment over two lines: the delimiter of the second line is not translated. -/
theorem C114_not_comment : applyRazor Char.isAlpha (fun _ m => m) defaultDelims c!"@/* a\n@b */" ≠
    Text.join ['\n'] ([c!"@/* a", c!"@b */"].map (applyRazor Char.isAlpha (fun _ m => m) defaultDelims)) := by
  decide +kernel

/-- C114 fails for a line that begins with `#` and an address: under another line the address is kept, at the beginning of the text its second half is taken as a variable. -/
theorem C114_not_address : applyRazor Char.isAlpha (fun _ m => m) defaultDelims c!"a\n#me@here.com" ≠
    Text.join ['\n'] ([c!"a", c!"#me@here.com"].map (applyRazor Char.isAlpha (fun _ m => m) defaultDelims)) := by
  decide +kernel

end Verif.Props
