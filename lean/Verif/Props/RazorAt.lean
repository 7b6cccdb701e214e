import Verif.Lemmas.RazorMail
/-!
# C89 Doubled delimiters are literal, C90 E-mail addresses are not razor code
-/

namespace Verif.Props
open Verif Regex Spec Engine Razor Lemmas Table

theorem first_rules {letter : Char → Bool} (parser : Replacement → Text → Text) {s : Text} (h : '`' ∉ s) :
    (generate defaultDelims).foldl (applyRule letter parser) s = ((generate defaultDelims).drop 2).foldl (applyRule letter parser) s := by
  have h0 := split_rules 0 2 parser letter s
  rw [List.drop_zero] at h0
  rw [h0]
  have h1 := rules_idle (letter := letter) parser 0 2 [['`']] (by decide +kernel) (s := s)
    (fun f hf => by rw [List.mem_singleton.mp hf]; exact fun hi => h (hi.subset (List.mem_singleton.mpr rfl)))
  rw [List.drop_zero] at h1
  rw [h1]

theorem mem_doubled {t : Text} {c : Char} (hc : c ≠ '@') : c ∈ doubled t ↔ c ∈ t := by
  induction t with
  | nil => simp [doubled]
  | cons d t ih =>
    by_cases hd : d = '@'
    · subst hd
      simp [doubled, hc, ih]
    · simp [doubled, hd, ih]

theorem singleton_infix {c : Char} {t : Text} (h : c ∈ t) : [c] <:+: t := by
  obtain ⟨a, b, rfl⟩ := List.append_of_mem h
  exact ⟨a, b, by simp⟩

theorem isRazor_of {s : Text} (h : '@' ∈ s) (ha : RazorAllowed s) : Content.isRazor defaultDelims s = true := by
  have h1 : Text.contains defaultDelims.razor s = true := by
    rw [Text.contains_iff]
    obtain ⟨a, b, rfl⟩ := List.append_of_mem h
    exact ⟨a, b, by simp [defaultDelims, T]⟩
  have h2 : Text.contains Content.noGoTemplate s = false := by
    rw [Bool.eq_false_iff]
    exact fun hc => ha.1 (show Content.noGoTemplate <:+: s from Text.contains_iff.mp hc)
  have h3 : Text.contains Content.noRazor s = false := by
    rw [Bool.eq_false_iff]
    exact fun hc => ha.2 (show Content.noRazor <:+: s from Text.contains_iff.mp hc)
  simp [Content.isRazor, h1, h2, h3]

theorem not_callMark {t : Text} (h : NoOtherSign t) : Text.replaceAll callMark [] t = t := by
  refine Text.replaceAll_of_not_contains ?_
  rw [Bool.eq_false_iff]
  exact fun hc => h callMark (by decide) (Text.contains_iff.mp hc)

/-- **C89.** A text whose razor delimiters are all doubled is given back with simple ones, and nothing else is changed. -/
theorem C89_doubled (letter : Char → Bool) (hl : letter '@' = false) (parser : Replacement → Text → Text) (t : Text) (h : NoOtherSign t)
    (ha : RazorAllowed (doubled t)) : applyRazor letter parser defaultDelims (doubled t) = t := by
  by_cases hat : '@' ∈ t
  · have hat' : '@' ∈ doubled t := by
      obtain ⟨a, b, rfl⟩ := List.append_of_mem hat
      rw [doubled_eq, substAt_append, substAt_cons_at]
      simp
    unfold applyRazor translateBy
    rw [if_pos (isRazor_of hat' ha), first_rules parser, split_rules 2 1]
    · have hmail : ∀ r ∈ ((generate defaultDelims).drop 2).take 1, applyRule letter parser (doubled t) r = doubled t := by
        intro r hr
        obtain ⟨e, he, hc⟩ := rules_compiled 2 1 r hr
        rw [mail_entry] at he
        rw [List.mem_singleton.mp he] at hc
        rw [applyRule_compiled hc]
        refine replaceRe_none (fun p x q caps hf _ hx => ?_)
        exact lonely_not_infix (needsLonely_sound hl hf (by decide +kernel)) hx
      rw [foldl_idle parser _ hmail, rules_doubled parser h, not_callMark h]
    · intro hb
      exact h ['`'] (by decide) (singleton_infix ((mem_doubled (by decide)).mp hb))
  · have hd : doubled t = t := by rw [doubled_eq, substAt_none hat]
    rw [hd]
    unfold applyRazor
    rw [if_neg]
    intro hr
    simp only [Content.isRazor, Bool.and_eq_true] at hr
    have := Text.contains_iff.mp hr.1.1
    exact hat (this.subset (by simp [defaultDelims, T]))

example : NoOtherSign c!"a @foo(x) { b } @// c" ∧ RazorAllowed (doubled c!"a @foo(x) { b } @// c") := by
  unfold NoOtherSign RazorAllowed
  constructor
  · decide +kernel
  · decide +kernel

/-- The texts that turn razor off leave the doubled delimiters as they are. -/
theorem C89_not_off : applyRazor Char.isAlpha (fun _ m => m) defaultDelims c!"no-razor! @@" = c!"no-razor! @@" := by
  unfold applyRazor
  rw [if_neg (by decide +kernel)]

/-- The mark of a literal delimiter before a doubled one: the text is not given back. -/
theorem C89_not_mark : doubled c!"_=!AT!=@" = c!"_=!AT!=@@" ∧
    applyRazor Char.isAlpha (fun _ m => m) defaultDelims c!"_=!AT!=@@" = c!"@=!AT!=_" := by
  refine ⟨by decide, ?_⟩
  rw [applyRazor_onTable _ _ (by decide +kernel)]
  decide +kernel

/-- **C90.** A text whose razor delimiters are all in e-mail addresses is left as it is. It must not begin with `#`, for the program sees no address in
`#name@example.com` there. -/
theorem C90_mail_partial (letter : Char → Bool) (parser : Replacement → Text → Text) (s : Text) (h : OnlyAddresses s) (h1 : s.head? ≠ some '#')
    (h2 : NoOtherSign s) : applyRazor letter parser defaultDelims s = s := by
  unfold applyRazor
  split
  · unfold translateBy
    rw [first_rules parser (fun hb => h2 ['`'] (by decide) (singleton_infix hb)), split_rules 2 1]
    have hmail : (((generate defaultDelims).drop 2).take 1).foldl (applyRule letter parser) s = doubled s := by
      have hlen := congrArg List.length (congrArg (fun l => List.take 1 (List.drop 2 l)) table_eq)
      simp only [← List.map_drop, ← List.map_take, List.length_map, mail_entry] at hlen
      obtain ⟨r, hr⟩ := List.length_eq_one_iff.mp hlen
      obtain ⟨e, he, hc⟩ := rules_compiled 2 1 r (by rw [hr]; exact List.mem_singleton.mpr rfl)
      rw [mail_entry] at he
      rw [List.mem_singleton.mp he] at hc
      rw [hr, List.foldl_cons, List.foldl_nil, applyRule_compiled hc]
      refine (onlyAddresses_mail (fun x caps => ?_) h).2 h1
      unfold output
      rw [if_neg (by rw [hc.2.2.1]; decide), if_pos hc.1]
    rw [hmail, rules_doubled parser h2, not_callMark h2]
  · rfl

example : OnlyAddresses c!"John <j.doe+x@mail.example.com>, a#b@c.d." := by
  refine .next (w := c!"John") (.inl (by decide)) (by decide) (.next (w := []) (.inl (by decide)) (by decide)
    (.next (w := c!"j.doe+x@mail.example.com") (.inr ?_) (by decide) (.next (w := []) (.inl (by decide)) (by decide)
    (.next (w := []) (.inl (by decide)) (by decide) (.address ?_)))))
  · exact ⟨c!"j.doe+x", c!"mail", c!"example", c!".com", rfl, by decide, by decide, ⟨by decide, by decide, by decide⟩, ⟨by decide, by decide, by decide⟩,
      by decide⟩
  · exact ⟨c!"a#b", c!"c", c!"d", c!".", rfl, by decide, by decide, ⟨by decide, by decide, by decide⟩, ⟨by decide, by decide, by decide⟩,
      by decide⟩

/-- A `#` at the beginning, and an address without a dot: they are razor code. -/
theorem C90_not_mail :
    applyRazor Char.isAlpha (fun _ m => m) defaultDelims c!"#joe@example.com" = c!"#joe{{ $.example.com }}" ∧
    applyRazor Char.isAlpha (fun _ m => m) defaultDelims c!"mail root@localhost now" = c!"mail root{{ $.localhost }} now" := by
  constructor
  · rw [applyRazor_onTable _ _ (by decide +kernel)]
    decide +kernel
  · rw [applyRazor_onTable _ _ (by decide +kernel)]
    decide +kernel

end Verif.Props
