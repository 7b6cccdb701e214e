import Verif.Lemmas.RazorParenAuto
import Verif.Lemmas.RazorParenSteps
/-!
# The other rules on a text with expressions between parentheses
-/

namespace Verif.Lemmas
open Verif Regex Spec Engine Razor Table

/-! ## Before -/

/-- A parenthesis does not end a comment. -/
theorem notCommented_paren {w a : Text} (h : NotCommented a) : NotCommented (w ++ ')' :: a) := by
  intro u m v hm hv he
  have hmv : ')' ∉ m ++ v := by
    have : ∀ m ∈ commentSigns, ')' ∉ m := by decide
    intro hi
    rcases List.mem_append.mp hi with hi | hi
    · exact this m hm hi
    · have := hv _ hi
      revert this
      decide
  rcases List.append_eq_append_iff.mp he with ⟨x, h1, h2⟩ | ⟨x, h1, h2⟩
  · cases x with
    | nil =>
      rw [List.nil_append] at h2
      exact hmv (by rw [← h2]; simp)
    | cons d x =>
      simp only [List.cons_append, List.cons.injEq] at h2
      exact h x m v hm hv h2.2
  · exact hmv (by rw [h2]; simp)

theorem notCommented_brace {w a : Text} (h : NotCommented a) : NotCommented (w ++ '}' :: a) := by
  intro u m v hm hv he
  have hmv : '}' ∉ m ++ v := by
    have : ∀ m ∈ commentSigns, '}' ∉ m := by decide
    intro hi
    rcases List.mem_append.mp hi with hi | hi
    · exact this m hm hi
    · have := hv _ hi
      revert this
      decide
  rcases List.append_eq_append_iff.mp he with ⟨x, h1, h2⟩ | ⟨x, h1, h2⟩
  · cases x with
    | nil =>
      rw [List.nil_append] at h2
      exact hmv (by rw [← h2]; simp)
    | cons d x =>
      simp only [List.cons_append, List.cons.injEq] at h2
      exact h x m v hm hv h2.2
  · exact hmv (by rw [h2]; simp)

theorem notCommented_part {letter : Char → Bool} {a w s d t v u : Text} {r : Text × Text × Text} {e : Expr} (h : Part letter a w s d t v r e) (hu : NotCommented u) :
    NotCommented (a ++ '@' :: (parenText r w s d ++ u)) := by
  have hd : NotCommented (')' :: (d ++ u)) := by
    rcases h.dropped with rfl | ⟨x, _, rfl⟩
    · exact notCommented_paren (w := []) hu
    · have := notCommented_semicolon (w := ')' :: x) hu
      simpa using this
  have hu' : NotCommented (d ++ u) := notCommented_suffix (a := [')']) hd
  have := notCommented_paren (w := a ++ '@' :: (r.1 ++ '(' :: (w ++ s))) hu'
  simpa [parenText] using this

theorem first_at {a x u v : Text} (ha : '@' ∉ a) (h : a ++ '@' :: x = u ++ '@' :: v) : (u = a ∧ v = x) ∨ ∃ y, u = a ++ '@' :: y ∧ x = y ++ '@' :: v := by
  rcases List.append_eq_append_iff.mp h with ⟨z, h1, h2⟩ | ⟨z, h1, h2⟩
  · cases z with
    | nil =>
      simp only [List.nil_append, List.cons.injEq, true_and] at h2
      exact .inl ⟨by rw [h1, List.append_nil], h2.symm⟩
    | cons c z =>
      simp only [List.cons_append, List.cons.injEq] at h2
      exact .inr ⟨z, by rw [h1, ← h2.1], h2.2⟩
  · cases z with
    | nil =>
      simp only [List.nil_append, List.cons.injEq, true_and] at h2
      exact .inl ⟨by rw [h1, List.append_nil], h2⟩
    | cons c z =>
      simp only [List.cons_append, List.cons.injEq] at h2
      exact absurd (by rw [h1, ← h2.1]; simp) ha

theorem paren_sign {r : Text × Text × Text} (hr : r ∈ reduceSigns) (hn : '_' ∉ r.1) : r.1 ∈ [[], c!"-", c!"--"] := by
  revert hn
  exact (by decide : ∀ r ∈ reduceSigns, '_' ∉ r.1 → r.1 ∈ [[], c!"-", c!"--"]) r hr

theorem paren_shape {letter : Char → Bool} (hl : SignLetters letter) {t t1 t2 t3 : Text} (h : ParenSteps letter t t1 t2 t3) : ParenShape t := by
  have key : ∀ {a w s d t v : Text} {r : Text × Text × Text} {e : Expr}, Part letter a w s d t v r e → ParenShape t → ParenShape (a ++ '@' :: (parenText r w s d ++ t)) := by
    intro a w s d t v r e hq ih x y hx
    rcases first_at hq.before hx with ⟨rfl, rfl⟩ | ⟨z, rfl, hz⟩
    · exact ⟨hq.comment, r.1, paren_sign hq.signs hq.noUnder, w ++ (s ++ ')' :: (d ++ t)), by simp [parenText]⟩
    · have hat := (part_chars hl hq).1
      rcases List.append_eq_append_iff.mp hz with ⟨m, h1, h2⟩ | ⟨m, h1, h2⟩
      · obtain ⟨g1, g2⟩ := ih m y h2
        refine ⟨?_, g2⟩
        rw [h1]
        exact notCommented_part hq g1
      · cases m with
        | nil =>
          rw [List.append_nil] at h1
          obtain ⟨g1, g2⟩ := ih [] y h2.symm
          refine ⟨?_, g2⟩
          rw [← h1, ← List.append_nil (parenText r w s d)]
          exact notCommented_part hq g1
        | cons c m =>
          simp only [List.cons_append, List.cons.injEq] at h2
          exact absurd (by rw [h1, ← h2.1]; simp) hat
  induction h with
  | plain ha _ => exact fun u v he => absurd (by rw [he]; simp) ha
  | @code c c' t t1 t2 t3 hc _ ih =>
    intro x y hx
    obtain ⟨c₀, rfl⟩ := hc.ends
    have hat := hc.free
    obtain ⟨m, h1, h2⟩ : ∃ m, x = (c₀ ++ c!"}}") ++ m ∧ t = m ++ '@' :: y := by
      rcases List.append_eq_append_iff.mp hx with ⟨m, h1, h2⟩ | ⟨m, h1, h2⟩
      · exact ⟨m, h1, h2⟩
      · cases m with
        | nil => exact ⟨[], by rw [h1]; simp, h2.symm⟩
        | cons d m =>
          simp only [List.cons_append, List.cons.injEq] at h2
          exact absurd (by rw [h1, ← h2.1]; simp) hat
    obtain ⟨g1, g2⟩ := ih m y h2
    refine ⟨?_, g2⟩
    rw [h1]
    have := notCommented_brace (w := c₀ ++ c!"}") g1
    simpa using this
  | name hq _ _ ih => exact key hq ih
  | other hq _ _ ih => exact key hq ih

/-! ## Between -/

theorem pair_infix {x y : Char} {A B : Text} (h : [x, y] <:+: A ++ B) : [x, y] <:+: A ∨ [x, y] <:+: B ∨ (A.getLast? = some x ∧ B.head? = some y) := by
  obtain ⟨p, q, h⟩ := h
  rw [List.append_assoc] at h
  rcases List.append_eq_append_iff.mp h with ⟨z, h1, h2⟩ | ⟨z, h1, h2⟩
  · match z, h2 with
    | [], h2 => exact .inr (.inl ⟨[], q, by simpa using h2⟩)
    | [c], h2 =>
      simp only [List.cons_append, List.nil_append, List.cons.injEq] at h2
      exact .inr (.inr ⟨by rw [h1, ← h2.1]; simp, by rw [← h2.2]; rfl⟩)
    | c :: d :: z, h2 =>
      simp only [List.cons_append, List.nil_append, List.cons.injEq] at h2
      exact .inl ⟨p, z, by rw [h1, ← h2.1, ← h2.2.1]; simp⟩
  · exact .inr (.inl ⟨z, q, by rw [h2]; simp⟩)

/-- No code is followed by a bracket that was not there. -/
theorem paren_bracket {letter : Char → Bool} (hl : SignLetters letter) {t t1 t2 t3 : Text} (h : ParenSteps letter t t1 t2 t3) (hn : ¬ c!")[" <:+: t) : ¬ c!")[" <:+: t1 := by
  induction h with
  | plain _ _ => exact hn
  | @code c c' t t1 t2 t3 hc _ ih =>
    intro hi
    obtain ⟨c₀, rfl⟩ := hc.ends
    have e1 : ∀ u, (c₀ ++ c!"}}") ++ u = (c₀ ++ c!"}") ++ '}' :: u := by simp
    rw [e1] at hi
    rcases infix_glue (by decide) hi with hi | hi
    · exact hn (hi.trans ⟨[], '}' :: t, by simp⟩)
    · exact ih (fun hi => hn (hi.trans (List.suffix_append _ _).isInfix)) hi
  | @name a w s d t t1 t2 t3 v r e hq hs h ih =>
    intro hi
    rcases infix_pieces hq.signs (by decide) (by decide) hi with hi | hi | hi
    · rcases infix_glue (by decide) hi with hi | hi
      · exact hn (hi.trans ⟨[], '@' :: (parenText r w s d ++ t), by simp⟩)
      · exact absurd (hi.subset (by decide : '[' ∈ c!")[")) (by decide)
    · exact name_code hl hs hq.ins hq.value (hi.subset (by decide))
    · exact ih (fun hi => hn (hi.trans ⟨a ++ '@' :: parenText r w s d, [], by simp⟩)) hi
  | @other a w s d t t1 t2 t3 v r e hq hs h ih =>
    intro hi
    have e1 : ∀ u, a ++ '@' :: (parenText r w s d ++ u) = (a ++ '@' :: parenText r w s d) ++ u := by simp
    rw [e1] at hi hn
    rcases pair_infix hi with hi | hi | ⟨h1, h2⟩
    · exact hn (hi.trans ⟨[], t, rfl⟩)
    · exact ih (fun hi => hn (hi.trans ⟨_, [], by rw [List.append_nil]⟩)) hi
    · have h3 := prefixLike_head (paren_like h) (by decide) h2
      obtain ⟨A, hA⟩ : ∃ A, a ++ '@' :: parenText r w s d = A ++ [')'] := by
        rw [List.getLast?_eq_some_iff] at h1
        exact h1
      obtain ⟨B, hB⟩ : ∃ B, t = '[' :: B := by
        cases t with
        | nil => cases h3
        | cons c B => cases h3; exact ⟨B, rfl⟩
      exact hn ⟨A, B, by rw [hA, hB]; simp⟩

/-! ## After -/

theorem paren_at {letter : Char → Bool} (hl : SignLetters letter) {t t1 t2 t3 : Text} (h : ParenSteps letter t t1 t2 t3) : '@' ∉ t2 := by
  induction h with
  | plain ha _ => exact ha
  | code hc _ ih => simp [hc.free, ih]
  | name hq _ _ ih => simp [hq.before, code_at hl hq, ih]
  | other hq _ _ ih => simp [hq.before, code_at hl hq, ih]

theorem quoted_front {a : Text} (hq : NotQuoted a) (h : c!"\"{{" <:+: a ++ c!"{{") : c!"\"{{" <:+: a := by
  obtain ⟨p, q, h⟩ := h
  have key : ∀ q', p ++ c!"\"{{" ++ q' = a → c!"\"{{" <:+: a := fun q' h => ⟨p, q', h⟩
  rcases List.eq_nil_or_concat q with rfl | ⟨q1, c, rfl⟩
  · rw [List.append_nil] at h
    have : p ++ c!"\"" ++ c!"{{" = a ++ c!"{{" := by rw [← h]; simp
    exact absurd (List.append_cancel_right this).symm (hq p).1
  · rcases List.eq_nil_or_concat q1 with rfl | ⟨q2, c', rfl⟩
    · have h' : (p ++ c!"\"{") ++ ['{', c] = a ++ c!"{{" := by rw [← h]; simp
      have := List.append_inj_left' h' (by rfl)
      exact absurd this.symm (hq p).2
    · have h' : (p ++ c!"\"{{" ++ q2) ++ [c', c] = a ++ c!"{{" := by rw [← h]; simp
      exact key q2 (List.append_inj_left' h' (by rfl))

/-- The signs of the last rules. -/
theorem paren_later {letter : Char → Bool} {f : Text} (hf : f ∈ [c!"@", c!"`", c!"\"<<", c!"\"{{", c!"_=!"]) {t t1 t2 t3 : Text} (h : ParenSteps letter t t1 t2 t3) (hn : ¬ f <:+: t) : ¬ f <:+: t2 := by
  have hne : f ≠ [] := (by decide : ∀ f ∈ [c!"@", c!"`", c!"\"<<", c!"\"{{", c!"_=!"], f ≠ []) f hf
  have hsep := (by decide : ∀ f ∈ [c!"@", c!"`", c!"\"<<", c!"\"{{", c!"_=!"], ∀ x ∈ c!" }-", x ∉ f) f hf
  have hbr := (by decide : ∀ f ∈ [c!"@", c!"`", c!"\"<<", c!"\"{{", c!"_=!"], f = c!"\"{{" ∨ '{' ∉ f) f hf
  have key : ∀ {a w s d t v t2 : Text} {r : Text × Text × Text} {e : Expr}, Part letter a w s d t v r e → (¬ f <:+: t → ¬ f <:+: t2) →
      ¬ f <:+: a ++ '@' :: (parenText r w s d ++ t) → ¬ f <:+: a ++ (wordCode (mu v) r.2.1 r.2.2 ++ t2) := by
    intro a w s d t v t2 r e hq ih hn hi
    rcases infix_pieces hq.signs hne hsep hi with hi | hi | hi
    · have : f <:+: a := by
        rcases hbr with rfl | hb
        · exact quoted_front hq.quote hi
        · rcases infix_glue hb hi with hi | hi
          · exact hi
          · exact absurd hi (infix_none hne (fun c hc => by
              rw [List.mem_singleton.mp hc]
              exact hb))
      exact hn (this.trans ⟨[], '@' :: (parenText r w s d ++ t), by simp⟩)
    · refine code_free (foreign_later f hf) hq.ins.source (fun hi => hn (hi.trans ?_)) v hq.value hi
      exact ⟨a ++ '@' :: (r.1 ++ '(' :: w), ')' :: (d ++ t), by simp [parenText]⟩
    · exact ih (fun hi => hn (hi.trans ⟨a ++ '@' :: parenText r w s d, [], by simp⟩)) hi
  induction h with
  | plain _ _ => exact hn
  | @code c c' t t1 t2 t3 hc _ ih =>
    intro hi
    obtain ⟨c₀, rfl⟩ := hc.ends
    have e1 : ∀ u, (c₀ ++ c!"}}") ++ u = (c₀ ++ c!"}") ++ '}' :: u := by simp
    rw [e1] at hi
    rcases infix_glue (hsep _ (by decide)) hi with hi | hi
    · exact hn (hi.trans ⟨[], '}' :: t, by simp⟩)
    · exact ih (fun hi => hn (hi.trans (List.suffix_append _ _).isInfix)) hi
  | name hq _ _ ih => exact key hq ih hn
  | other hq _ _ ih => exact key hq ih hn

/-- The marks of the calls are removed at the end. -/
theorem paren_marks {letter : Char → Bool} (hl : SignLetters letter) {t t1 t2 t3 : Text} (h : ParenSteps letter t t1 t2 t3) :
    Text.replaceAll callMark [] t2 = t3 := by
  have key : ∀ {a w s d t v t2 t3 : Text} {r : Text × Text × Text} {e : Expr}, Part letter a w s d t v r e →
      Text.replaceAll callMark [] t2 = t3 →
      Text.replaceAll callMark [] (a ++ (wordCode (mu v) r.2.1 r.2.2 ++ t2)) = a ++ (wordCode (rho v) r.2.1 r.2.2 ++ t3) := by
    intro a w s d t v t2 t3 r e hq ih
    obtain ⟨s1, s2⟩ := sign_parts hq.signs
    have e1 : ∀ c u, a ++ (wordCode c r.2.1 r.2.2 ++ u) = a ++ ((c!"{{" ++ r.2.1 ++ c!" ") ++ (c ++ ((c!" " ++ r.2.2 ++ c!"}}") ++ u))) := by simp [wordCode]
    have hc : ∀ c ∈ c!"{ }-", c ∉ callMark := by decide
    rw [e1, e1, replaceAll_around (by decide) (by simp), replaceAll_around (by decide) (by simp), replaceAll_free hq.unmarked, (marks_removed hl hq.ins hq.value).1, ih]
    · intro c hm
      simp only [List.mem_append] at hm
      rcases hm with (hm | hm) | hm
      · exact hc c (by rw [List.mem_singleton.mp hm]; decide)
      · exact hc c (by rw [s2 c hm]; decide)
      · exact hc c ((by decide : ∀ x ∈ c!"}}", x ∈ c!"{ }-") c hm)
    · intro c hm
      simp only [List.mem_append] at hm
      rcases hm with (hm | hm) | hm
      · exact hc c ((by decide : ∀ x ∈ c!"{{", x ∈ c!"{ }-") c hm)
      · exact hc c (by rw [s1 c hm]; decide)
      · exact hc c (by rw [List.mem_singleton.mp hm]; decide)
  induction h with
  | plain _ hn => exact replaceAll_free hn
  | code hc _ ih => rw [hc.marks, ih]
  | name hq _ _ ih => exact key hq ih
  | other hq _ _ ih => exact key hq ih

/-- The rules after those of the expressions. -/
theorem rules_after_paren {letter : Char → Bool} (hl : SignLetters letter) (parser : Replacement → Text → Text) {t t1 t2 t3 : Text} (h : ParenSteps letter t t1 t2 t3)
    (hs : ∀ f ∈ [c!"`", c!"\"<<", c!"\"{{", c!"_=!"], ¬ f <:+: t) : Text.replaceAll callMark [] (((generate defaultDelims).drop 152).foldl (applyRule letter parser) t2) = t3 := by
  have hno : ∀ f ∈ [c!"`", c!"\"<<", c!"\"{{", c!"_=!"], ¬ f <:+: t2 := fun f hf =>
    paren_later (List.mem_cons_of_mem _ hf) h (hs f hf)
  rw [split_rules 152 7, rules_idle parser 152 7 [['@']] (by decide +kernel)]
  · rw [split_rules 159 1]
    have hraw : ∀ r ∈ ((generate defaultDelims).drop 159).take 1, applyRule letter parser t2 r = t2 := by
      intro r hr
      obtain ⟨e, he, hc⟩ := rules_compiled 159 1 r hr
      obtain ⟨hp, hq⟩ := raw_table e he
      rw [applyRule_compiled hc]
      refine replaceRe_none (fun p x q caps hf _ hx => ?_)
      obtain ⟨l, hl'⟩ := List.isPrefixOf_iff_prefix.mp hq
      have hfollow := pieces_sound hf
      rw [← hl'] at hfollow
      obtain ⟨y, hy⟩ := follows_prefix hfollow
      have hy' : x = '"' :: '{' :: '{' :: y := hy.symm
      refine hno c!"\"{{" (by decide) (List.IsInfix.trans ⟨[], y, ?_⟩ hx)
      rw [hy']
      rfl
    rw [foldl_idle parser _ hraw]
    have : (generate defaultDelims).drop (159 + 1) = ((generate defaultDelims).drop 160).take 5 := by
      rw [List.take_of_length_le]
      simp [generate_length]
    rw [this, rules_idle parser 160 5 [c!"\"<<", c!"_=!", c!"`"] (by decide +kernel)]
    · exact paren_marks hl h
    · intro f hf
      exact hno f (by revert f; decide)
  · intro f hf
    rw [List.mem_singleton.mp hf]
    exact fun hi => paren_at hl h (hi.subset (List.mem_singleton.mpr rfl))

end Verif.Lemmas
