import Verif.Lemmas.RazorBlockSteps
/-!
# The rule of the assignments
-/

namespace Verif.Lemmas
open Verif Regex Spec Engine Razor Table Prepare _root_.Verif.Insert

/-! ## The rules of commands, `else` and `end` do not find assignments -/

/-- A word at the beginning of a name followed by something else is at the beginning of the name. -/
theorem word_prefix {P : Char → Bool} {n m r r' : Text} (hm : ∀ c ∈ m, P c = true) (hr : ∀ c, r.head? = some c → P c = false) (h : n ++ r = m ++ r') : m <+: n := by
  rcases List.append_eq_append_iff.mp h with ⟨z, h1, h2⟩ | ⟨z, h1, h2⟩
  · cases z with
    | nil =>
      rw [List.append_nil] at h1
      rw [h1]
      exact List.prefix_refl _
    | cons c z =>
      have e1 := hr c (by rw [h2]; rfl)
      rw [hm c (by rw [h1]; simp)] at e1
      cases e1
  · exact ⟨z, h1.symm⟩

theorem blank_not_var {letter : Char → Bool} (hl : PlainLetters letter) {c : Char} (h : isBlank c = true ∨ c = '(') : varChar letter c = false := by
  have hm : c ∈ c!" \t(" := by
    rcases h with h | rfl
    · rcases blank_or h with rfl | rfl <;> decide
    · decide
  unfold varChar
  rw [hl.1 c ((by decide : ∀ c ∈ c!" \t(", c.toNat < 128) c hm)]
  exact (by decide : ∀ c ∈ c!" \t(", (c.isAlpha || c.isDigit || c == '_') = false) c hm

section
variable {letter : Char → Bool} {n w o w' s o' x t v : Text} {q : Text × Text × Option Text} {e : Expr}

/-- What follows the name. -/
theorem after_name (hl : PlainLetters letter) (h : Asg letter n w o w' s o' x t v q e) (u : Text) :
    ∀ c, (w ++ (o ++ (w' ++ (s ++ u)))).head? = some c → varChar letter c = false := by
  intro c hc
  obtain ⟨h1, h2, _, _⟩ := value_signs h.value
  obtain ⟨d, o₁, rfl, hd⟩ := sign_first h1 h2
  cases w with
  | nil =>
    cases hc
    exact (sign_char hl hd).2.1
  | cons f w =>
    cases hc
    exact blank_not_var hl (.inl (h.blanks _ (List.mem_cons_self ..)))

theorem asg_word (hl : PlainLetters letter) (h : Asg letter n w o w' s o' x t v q e) {m r u : Text} (hne : m ≠ []) (hm : ∀ c ∈ m, c.isAlpha = true)
    (he : asgText q n w o w' s ++ u = m ++ r) : q.1 = [] ∧ m <+: n ∧ n ++ (w ++ (o ++ (w' ++ (s ++ u)))) = m ++ r := by
  have hm' : ∀ c ∈ m, varChar letter c = true := by
    intro c hc
    have h128 : c.toNat < 128 := by
      have := hm c hc
      simp only [Char.isAlpha, Char.isUpper, Char.isLower, Bool.or_eq_true, Bool.and_eq_true, decide_eq_true_eq] at this
      have h2 : c.val.toNat = c.toNat := rfl
      rcases this with ⟨_, h⟩ | ⟨_, h⟩
      · have := UInt32.le_iff_toNat_le.mp h
        simp at this
        omega
      · have := UInt32.le_iff_toNat_le.mp h
        simp at this
        omega
    unfold varChar
    rw [hl.1 c h128, hm c hc]
    rfl
  have e1 : q.1 ++ (n ++ (w ++ (o ++ (w' ++ (s ++ u))))) = m ++ r := by simpa [asgText] using he
  rcases (by decide : ∀ q ∈ places, q.1 = [] ∨ ∃ c ∈ c!"$.", q.1.head? = some c) q h.place with e2 | ⟨c, hc, e2⟩
  · rw [e2, List.nil_append] at e1
    exact ⟨e2, word_prefix hm' (after_name hl h u) e1, e1⟩
  · exfalso
    obtain ⟨d, m', rfl⟩ := List.exists_cons_of_ne_nil hne
    cases hq : q.1 with
    | nil => rw [hq] at e2; cases e2
    | cons f z =>
      rw [hq] at e1 e2
      cases e2
      simp only [List.cons_append, List.cons.injEq] at e1
      have := hm d (List.mem_cons_self ..)
      rw [← e1.1] at this
      rw [(by decide : ∀ c ∈ c!"$.", c.isAlpha = false) c hc] at this
      cases this

theorem asg_start (hl : PlainLetters letter) (h : Asg letter n w o w' s o' x t v q e) (u : Text) :
    ∃ c y, asgText q n w o w' s ++ u = c :: y ∧ c ≠ '-' ∧ c ≠ '_' := by
  obtain ⟨c, n', rfl, hc⟩ := h.name.first
  rcases (by decide : ∀ q ∈ places, q.1 = [] ∨ ∃ c ∈ c!"$.", q.1.head? = some c) q h.place with e2 | ⟨d, hd, e2⟩
  · refine ⟨c, _, by rw [asgText, e2]; rfl, ?_, ?_⟩ <;>
    · rintro rfl
      rw [hl.1 _ (by decide)] at hc
      revert hc
      decide
  · cases hq : q.1 with
    | nil => rw [hq] at e2; cases e2
    | cons f z =>
      rw [hq] at e2
      cases e2
      refine ⟨d, _, by rw [asgText, hq]; rfl, ?_⟩
      exact (by decide : ∀ c ∈ c!"$.", c ≠ '-' ∧ c ≠ '_') d hd

theorem cmd_not_asg {K : Cls} (hl : PlainLetters letter) (h : Asg letter n w o w' s o' x t v q e) (u : Text) (p : Option Char) :
    matchAt letter (cmdRe K) p ('@' :: (asgText q n w o w' s ++ u)) = none := by
  obtain ⟨c, y, hy, hc⟩ := asg_start hl h u
  refine no_match (fun x' q' k k' hf he => ?_)
  obtain ⟨r', hr', m, g, y', rfl, hm, hg⟩ := fit_cmd hf
  obtain ⟨d, z, hz, h1, h2⟩ : ∃ c t, m = c :: t ∧ c ≠ '-' ∧ c ≠ '_' := by
    rcases hm with hm | ⟨w, _, rfl⟩
    · simp only [List.mem_cons, List.not_mem_nil, or_false] at hm
      rcases hm with rfl | rfl | rfl | rfl | rfl <;> exact ⟨_, _, rfl, by decide, by decide⟩
    · exact ⟨_, _, rfl, by decide, by decide⟩
  have e1 : ([] : Text) ++ c :: y = r'.1 ++ d :: (z ++ (g ++ '(' :: (y' ++ q'))) := by
    have := (List.cons.inj he).2
    rw [hy, hz] at this
    simpa using this
  have e2 := sign_split (r := ([], [], [])) (by decide) hr' hc ⟨h1, h2⟩ e1
  rw [← hy] at e2
  have e3 : asgText q n w o w' s ++ u = m ++ (g ++ '(' :: (y' ++ q')) := by
    rw [e2, hz]
    simp
  rcases hm with hm | ⟨w₁, _, rfl⟩
  · obtain ⟨hm1, hm2⟩ := (by decide : ∀ m ∈ [c!"if", c!"with", c!"range", c!"block", c!"define"], m ≠ [] ∧ ∀ c ∈ m, c.isAlpha = true) m hm
    obtain ⟨_, g1, g2⟩ := asg_word hl h hm1 hm2 e3
    have g3 : n <+: m := word_prefix (P := varChar letter) h.name.chars (fun c hc => by
      cases g with
      | nil =>
        cases hc
        exact blank_not_var hl (.inr rfl)
      | cons f g =>
        cases hc
        exact blank_not_var hl (.inl (hg _ (List.mem_cons_self ..)))) g2.symm
    have g4 := List.IsPrefix.eq_of_length_le g3 g1.length_le
    rw [g4] at g2
    have g5 := List.append_cancel_left g2
    obtain ⟨h1, h2, _, _⟩ := value_signs h.value
    obtain ⟨d, o₁, rfl, hd⟩ := sign_first h1 h2
    have hsc := sign_char hl hd
    have k1 : w <+: g := word_prefix (P := isBlank) h.blanks (r' := d :: o₁ ++ (w' ++ (s ++ u))) (fun c hc => by
      cases hc
      decide) g5.symm
    have k2 : g <+: w := word_prefix (P := isBlank) hg (r := d :: o₁ ++ (w' ++ (s ++ u))) (fun c hc => by
      cases hc
      exact hsc.2.2.1) g5
    have k3 := List.IsPrefix.eq_of_length_le k1 k2.length_le
    rw [k3] at g5
    have g6 := List.append_cancel_left g5
    simp only [List.cons_append, List.cons.injEq] at g6
    exact hsc.2.2.2.2.1 g6.1
  · have e4 : asgText q n w o w' s ++ u = c!"else" ++ ((w₁ ++ c!"if") ++ (g ++ '(' :: (y' ++ q'))) := by
      rw [e3]
      simp
    obtain ⟨g1, g2, _⟩ := asg_word hl h (by decide) (by decide) e4
    exact (h.name.plain g1).1 g2

theorem word_not_asg (hl : PlainLetters letter) (h : Asg letter n w o w' s o' x t v q e) (u : Text) (p : Option Char) :
    matchAt letter elseRe p ('@' :: (asgText q n w o w' s ++ u)) = none ∧ matchAt letter finRe p ('@' :: (asgText q n w o w' s ++ u)) = none := by
  obtain ⟨c, y, hy, hc⟩ := asg_start hl h u
  constructor
  · refine no_match (fun x' q' k k' hf he => ?_)
    obtain ⟨r', hr', rfl⟩ := fit_else hf
    have e2 := sign_split (r := ([], [], [])) (x := y) (by decide) hr' (d := 'e') (y := c!"lse" ++ q') hc (by decide) (by
      have := (List.cons.inj he).2
      rw [hy] at this
      simpa using this)
    rw [← hy] at e2
    obtain ⟨g1, g2, _⟩ := asg_word hl h (m := c!"else") (r := q') (by decide) (by decide) e2
    exact (h.name.plain g1).1 g2
  · refine no_match (fun x' q' k k' hf he => ?_)
    obtain ⟨r', hr', y', rfl⟩ := fit_fin hf
    have e2 := sign_split (r := ([], [], [])) (x := y) (by decide) hr' (d := 'e') (y := c!"nd" ++ (y' ++ q')) hc (by decide) (by
      have := (List.cons.inj he).2
      rw [hy] at this
      simpa using this)
    rw [← hy] at e2
    obtain ⟨g1, g2, _⟩ := asg_word hl h (m := c!"end") (r := y' ++ q') (by decide) (by decide) e2
    exact (h.name.plain g1).2 g2

/-! ## The code of an assignment -/

theorem operand_code (hl : SignLetters letter) {o₀ : Orders} (ho : SomeOrder o₀) (h : Insertable letter x e) (hv : Razor.nodeValue e = some v) (internal : Bool) :
    operandCode letter o₀ internal x = some (mu (if internal then Razor.wrap v else v)) := by
  obtain ⟨_, _, _, m, ts, t, g1, _, _, g4, g5, g6⟩ := source_ready hl ho h.source h.marks
  have g4 := g4 [] nofun
  simp only [List.append_nil, scan_nil, Option.map_some] at g4
  have hfree : ∀ internal : Bool, ¬ c!".slice" <:+: mu (if internal then Razor.wrap v else v) := by
    intro i
    have := code_free foreign_slice h.source h.noSlice v hv
    cases i
    · exact this
    · exact foreign_slice.wrapped this
  have hfix : ∀ internal : Bool, fixSlice (mu (if internal then Razor.wrap v else v)) = mu (if internal then Razor.wrap v else v) := fun i =>
    replaceAll_free (fun hi => hfree i (List.IsInfix.trans (⟨['$'], [' '], rfl⟩ : c!".slice" <:+: T "$.slice ") hi))
  rcases value_both g6 with ⟨_, n2⟩ | ⟨L, hL, v1, v2⟩
  · rw [hv] at n2
    cases n2
  · rw [hv] at v2
    cases v2
    obtain ⟨M, hM, m1, m2⟩ := wrap_both hL
    have hcode : ∀ {L : Marked}, Tidy L → ∀ group, expand group (comeBack (flat L)) = mu (short L) := by
      intro L hL group
      rw [comeBack_calls hL.marks hL.clear, ← once_mu hL]
      exact doubled_expand (doubled_once hL).1
    simp only [operandCode, g1, Translate.parse, g4, Option.bind_eq_bind, Option.bind_some, parseTokens_level g5, v1]
    cases internal
    · simp only [Bool.false_eq_true, if_false, hcode hL]
      have := hfix false
      simp only [Bool.false_eq_true, if_false] at this
      rw [this]
    · simp only [if_true, m1, hcode hM]
      rw [← m2]
      have := hfix true
      simp only [if_true] at this
      rw [this]

theorem asg_expression (hl : SignLetters letter) {o₀ : Orders} (ho : SomeOrder o₀) (mode : Razor.Validation) (h : Asg letter n w o w' s o' x t v q e) :
    assignExpression (operandCode letter o₀) mode c!"{{" c!"}}" false ('@' :: q.1) n s o = some (asgCode (checkOf mode) q n o' (mu (asgOperand q v))) := by
  have hn : n ≠ [] := by
    obtain ⟨c, n', rfl, _⟩ := h.name.first
    simp
  have hdot := name_no hl.1 h.name (c := '.') (by decide)
  have hone : o ≠ [] := by
    obtain ⟨d, o₁, rfl, _⟩ := sign_first (value_signs h.value).1 (value_signs h.value).2.1
    simp
  have hsplit : Text.splitC '.' n = [n] := Text.splitC_of_not_mem hdot
  have hop : ∀ i, operandCode letter o₀ i x = _ := operand_code hl ho h.ins h.nv
  have hexp : expandOperator (if '@' :: q.1 = c!"@$." then c!"@" else '@' :: q.1) n s o = (o', x) := by
    have hp := h.place
    simp only [places, List.mem_cons, List.not_mem_nil, or_false] at hp
    cases h.value with
    | same o ho =>
      simp only [List.mem_cons, List.not_mem_nil, or_false] at ho
      unfold expandOperator
      rw [if_pos (show o = T ":=" ∨ o = T "=" from ho)]
    | operation y hy =>
      have hy' := (by decide : ∀ y ∈ assignOperators, ¬ (y ++ c!"=" = T ":=" ∨ y ++ c!"=" = T "=")) y hy
      unfold expandOperator
      rw [if_neg hy']
      rcases hp with rfl | rfl | rfl | rfl <;> simp [T]
  have hel : List.elem '.' n = false := by
    rw [Bool.eq_false_iff]
    intro hm
    exact hdot (by simpa using hm)
  unfold assignExpression
  rw [if_neg (by simp [hn, hone, h.ne])]
  have hexp' : expandOperator (if '@' :: q.1 = T "@$." then T "@" else '@' :: q.1) n s o = (o', x) := hexp
  simp only [hexp']
  have hp := h.place
  simp only [places, List.mem_cons, List.not_mem_nil, or_false] at hp
  have ho' := (value_signs h.value).2.2.1
  simp only [List.mem_cons, List.not_mem_nil, or_false] at ho'
  rcases hp with rfl | rfl | rfl | rfl
  all_goals
    rcases ho' with rfl | rfl <;> cases mode <;>
      simp [T, hop, hel, hdot, assignCode, hsplit, asgCode, asgLead, asgFront, asgOperand, checkOf, existsCheck, wordCode, Text.join]

theorem asg_match (hl : SignLetters letter) (h : Asg letter n w o w' s o' x t v q e) {b : Text} (hb : b = [] ∨ b.head? = some '\n') (p : Option Char) :
    ∃ caps, matchAt letter (asgRe lineCls) p ('@' :: (asgText q n w o w' s ++ b)) = some ((asgText q n w o w' s).length + 1, caps) ∧
      groupOf caps c!"type" = '@' :: q.1 ∧ groupOf caps c!"id" = n ∧ groupOf caps c!"assign" = o ∧ groupOf caps c!"expr" = s := by
  obtain ⟨h1, h2, _, h4⟩ := value_signs h.value
  have hln : '\n' ∉ s := fun hm => (source_src hl h.ins.source).line (h4.subset hm)
  obtain ⟨caps, m1, m2⟩ := matchAt_asg hl.1 h.place h.name h.blanks h1 h2 h.gap h.blanks' h.ne h.first hln hb p
  refine ⟨caps, ?_, m2⟩
  have e1 : asgText q n w o w' s ++ b = q.1 ++ (n ++ (w ++ (o ++ (w' ++ (s ++ b))))) := by simp [asgText]
  rw [e1, m1]
  congr 2
  simp only [asgText, List.length_cons, List.length_append]
  omega

theorem asg_parsed (hl : SignLetters letter) {o₀ : Orders} (ho : SomeOrder o₀) (mode : Razor.Validation) (h : Asg letter n w o w' s o' x t v q e) :
    assignParser letter o₀ mode (asgRe lineCls) ('@' :: asgText q n w o w' s) = asgCode (checkOf mode) q n o' (mu (asgOperand q v)) := by
  obtain ⟨caps, m1, m2, m3, m4, m5⟩ := asg_match hl h (b := []) (.inl rfl) none
  rw [List.append_nil] at m1
  have hg : groups letter (asgRe lineCls) ('@' :: asgText q n w o w' s) = caps := by
    unfold groups
    rw [m1]
  unfold assignParser
  simp only [hg, m2, m3, m4, m5, asg_expression hl ho mode h, Option.getD_some]

theorem asg_not_paren (hl : PlainLetters letter) {K : Cls} {r : Text × Text × Text} (hr : r ∈ reduceSigns) (hu : '_' ∉ r.1) (w s d t : Text) (p : Option Char) :
    matchAt letter (asgRe K) p ('@' :: (parenText r w s d ++ t)) = none := by
  refine no_match (fun x q k k' hf he => ?_)
  obtain ⟨c, y, rfl, hc⟩ := fit_asg hf
  have e1 : r.1 ++ '(' :: (w ++ (s ++ ')' :: (d ++ t))) = c :: (y ++ q) := by
    have := (List.cons.inj he).2
    simpa [parenText] using this
  have hm : c ∈ c!"-(" := by
    cases hq : r.1 with
    | nil =>
      rw [hq] at e1
      simp only [List.nil_append, List.cons.injEq] at e1
      rw [← e1.1]
      decide
    | cons f z =>
      have h1 := paren_signs hr f (by rw [hq]; simp)
      rw [hq] at e1 hu
      simp only [List.cons_append, List.cons.injEq] at e1
      rcases h1 with rfl | rfl
      · rw [← e1.1]
        decide
      · exact absurd (List.mem_cons_self ..) hu
  rcases hc with rfl | rfl | hc
  · exact absurd hm (by decide)
  · exact absurd hm (by decide)
  · rw [wide_not ((hl.1 c ((by decide : ∀ c ∈ c!"-(", c.toNat < 128) c hm)).trans ((by decide : ∀ c ∈ c!"-(", c.isAlpha = false) c hm))
      ((by decide : ∀ c ∈ c!"-(", c.isDigit = false) c hm) ((by decide : ∀ c ∈ c!"-(", c ∉ c!"_+*%#!~") c hm)] at hc
    cases hc

/-! ## What is in the code -/

theorem name_spade (hl : SignLetters letter) {g : Text} (h : PlaceName letter g n) {c : Char} (hc : c ∈ c!"[♠`<{!") : c ∉ n := by
  rcases (by decide : ∀ c ∈ c!"[♠`<{!", c = '♠' ∨ c ∈ c!"@.[`<{!\"()$ \t\n,:=-;}") c hc with rfl | hc
  · intro hm
    have := h.chars _ hm
    unfold varChar at this
    rw [hl.2.2.2.2] at this
    revert this
    decide
  · exact name_no hl.1 h hc

theorem infix_asg (hl : SignLetters letter) {mode : Razor.Validation} (h : Asg letter n w o w' s o' x t v q e) {f a c u : Text} (hne : f ≠ []) (hs : ∀ c ∈ c!" }-", c ∉ f)
    (hd : ∃ d ∈ f, d ∈ c!"[♠`<{!") (hi : f <:+: a ++ (asgCode (checkOf mode) q n o' c ++ u)) : f <:+: a ++ c!"{{" ∨ f <:+: c ∨ f <:+: u := by
  obtain ⟨d, hd, hdd⟩ := hd
  have hn := name_spade hl h.name hdd
  have key : ∀ {a : Text}, f <:+: a ++ (wordCode (asgFront q n o' ++ ' ' :: c) c!"-" [] ++ u) → f <:+: a ++ c!"{{" ∨ f <:+: c ∨ f <:+: u := by
    intro a hi
    rcases infix_pieces (r := (c!"-", c!"-", [])) (by decide) hne hs hi with hi | hi | hi
    · exact .inl hi
    · rcases infix_glue (hs _ (by decide)) hi with hi | hi
      · rcases front_chars h (hi.subset hd) with hm | hm
        · exact absurd hm hn
        · exact absurd hm ((by decide : ∀ d ∈ c!"[♠`<{!", d ∉ c!"$ :=set.\"") d hdd)
      · exact .inr (.inl hi)
    · exact .inr (.inr hi)
  unfold asgCode at hi
  rcases lead_cases mode q n o' with e1 | ⟨g, hg, e1⟩
  · rw [e1, List.nil_append] at hi
    exact key hi
  · rw [e1, List.append_assoc] at hi
    rcases infix_pieces (r := (c!"-", c!"-", [])) (by decide) hne hs hi with hi | hi | hi
    · exact .inl hi
    · rcases check_chars hg h.place (hi.subset hd) with hm | hm
      · exact absurd hm hn
      · exact absurd hm ((by decide : ∀ d ∈ c!"[♠`<{!", d ∉ checkChars) d hdd)
    · rcases key (a := []) hi with hi | hi
      · exact .inl (hi.trans ⟨a, [], by simp⟩)
      · exact .inr hi

/-! ## The marks of calls -/

theorem wrap_marks {v : Text} (h : Text.replaceAll Engine.callMark [] (mu v) = rho v) : Text.replaceAll Engine.callMark [] (mu (Razor.wrap v)) = rho (Razor.wrap v) := by
  have key : Text.replaceAll Engine.callMark [] (mu ('(' :: (v ++ [')']))) = rho ('(' :: (v ++ [')'])) := by
    have e1 : mu ('(' :: (v ++ [')'])) = [] ++ (c!"(" ++ (mu v ++ (c!")" ++ []))) := by
      rw [mu_cons, mu_append]
      rfl
    rw [e1, replaceAll_around (by decide) (by simp) (by decide), replaceAll_around (by decide) (by simp) (by decide), h, rho_wrapped]
    rfl
  unfold Razor.wrap
  split
  · exact h
  · simp only
    split
    · exact h
    · exact key

theorem operand_marks (hl : SignLetters letter) (h : Asg letter n w o w' s o' x t v q e) : Text.replaceAll Engine.callMark [] (mu (asgOperand q v)) = rho (asgOperand q v) := by
  have := (marks_removed hl h.ins h.nv).1
  unfold asgOperand
  split
  · exact this
  · exact wrap_marks this

/-- A text around a name. -/
theorem marks_around {a b n : Text} (ha : ∀ c ∈ c!"_", c ∉ a) (hb : ∀ c ∈ c!"_", c ∉ b) (ha' : a = [] ∨ ∃ c, a.getLast? = some c ∧ c ∉ callMark)
    (hb' : b = [] ∨ ∃ c, b.head? = some c ∧ c ∉ callMark) (h : ¬ Engine.callMark <:+: n) : ¬ Engine.callMark <:+: a ++ (n ++ b) := by
  have hfree : ∀ {y : Text}, (∀ c ∈ c!"_", c ∉ y) → ¬ Engine.callMark <:+: y := fun hy hi => hy '_' (by decide) (hi.subset (by decide))
  intro hi
  have h1 : Engine.callMark <:+: n ++ b := by
    rcases ha' with rfl | ⟨c, hc, hm⟩
    · exact hi
    · obtain ⟨a', rfl⟩ : ∃ a', a = a' ++ [c] := by
        rcases List.eq_nil_or_concat a with rfl | ⟨a', d, rfl⟩
        · cases hc
        · simp at hc
          exact ⟨a', by simp [hc]⟩
      have e1 : a' ++ [c] ++ (n ++ b) = a' ++ c :: (n ++ b) := by simp
      rw [e1] at hi
      rcases infix_glue hm hi with hi | hi
      · exact absurd hi (hfree (fun d hd hm => ha d hd (by simp [hm])))
      · exact hi
  rcases hb' with rfl | ⟨c, hc, hm⟩
  · rw [List.append_nil] at h1
    exact h h1
  · cases b with
    | nil => cases hc
    | cons d b =>
      cases hc
      rcases infix_glue hm h1 with h1 | h1
      · exact h h1
      · exact hfree (fun d hd hm => hb d hd (by simp [hm])) h1

theorem front_marks (h : Asg letter n w o w' s o' x t v q e) : ¬ Engine.callMark <:+: asgFront q n o' := by
  have ho := (by decide : ∀ o ∈ [c!":=", c!"="], '_' ∉ o) o' (value_signs h.value).2.2.1
  have hh := (by decide : ∀ q ∈ places, ∀ h, q.2.2 = some h → '_' ∉ h) q h.place
  unfold asgFront
  split
  · exact marks_around (a := c!"$") (b := ' ' :: o') (by decide) (by simp [ho]) (.inr ⟨'$', rfl, by decide⟩) (.inr ⟨' ', rfl, by decide⟩) h.unmarked
  · next g hg =>
    have e1 : c!"set " ++ (g ++ (c!" \"" ++ (n ++ c!"\""))) = (c!"set " ++ (g ++ c!" \"")) ++ (n ++ c!"\"") := by simp
    rw [e1]
    exact marks_around (by simp [hh g hg]) (by decide) (.inr ⟨'"', by rw [← List.append_assoc, List.getLast?_append]; rfl, by decide⟩) (.inr ⟨'"', rfl, by decide⟩) h.unmarked

theorem check_marks {mode : Razor.Validation} {f : Text} (hf : checkOf mode = some f) (h : Asg letter n w o w' s o' x t v q e) :
    ¬ Engine.callMark <:+: existsCheck f (q.2.1 ++ n) := by
  have h1 : '_' ∉ f := by
    cases mode with
    | disabled => cases hf
    | warning =>
      cases hf
      decide
    | strict =>
      cases hf
      decide
  obtain ⟨h2, c, hc1, hc2⟩ := (by decide : ∀ q ∈ places, '_' ∉ q.2.1 ∧ ∃ c ∈ c!"$.", q.2.1.getLast? = some c) q h.place
  have hc1' := (by decide : ∀ c ∈ c!"$.", c ∉ callMark) c hc1
  have piece : ∀ {a b : Text}, '_' ∉ a → '_' ∉ b → (∃ c, b.head? = some c ∧ c ∉ callMark) → ¬ Engine.callMark <:+: (a ++ q.2.1) ++ (n ++ b) := by
    intro a b ha hb hb'
    refine marks_around (by simp [ha, h2]) (by simpa using hb) (.inr ⟨c, ?_, hc1'⟩) (.inr hb') h.unmarked
    rw [List.getLast?_append, hc2]
    rfl
  unfold existsCheck
  have e1 : f ++ (c!" (not (isNil " ++ ((q.2.1 ++ n) ++ (c!")) \"" ++ ((q.2.1 ++ n) ++ c!" does not exist, use := to declare new variable\"")))) =
      (((f ++ c!" (not (isNil ") ++ q.2.1) ++ (n ++ c!"))")) ++ ' ' :: ((c!"\"" ++ q.2.1) ++ (n ++ c!" does not exist, use := to declare new variable\"")) := by simp
  rw [e1]
  intro hi
  rcases infix_glue (by decide) hi with hi | hi
  · exact piece (by simp [h1]) (by decide) ⟨')', rfl, by decide⟩ hi
  · exact piece (by decide) (by decide) ⟨' ', rfl, by decide⟩ hi

theorem asg_marks (hl : SignLetters letter) (h : Asg letter n w o w' s o' x t v q e) :
    Text.replaceAll Engine.callMark [] (asgFront q n o' ++ ' ' :: mu (asgOperand q v)) = asgFront q n o' ++ ' ' :: rho (asgOperand q v) := by
  have e1 : ∀ c, asgFront q n o' ++ ' ' :: c = asgFront q n o' ++ (c!" " ++ c) := by simp
  rw [e1, e1, replaceAll_around (by decide) (by simp) (by decide), replaceAll_free (front_marks h), operand_marks hl h]

/-! ## The operations of the code -/

theorem asg_meaning (hl : SignLetters letter) (mode : Razor.Validation) (h : Asg letter n w o w' s o' x t v q e) :
    AssignCode (checkOf mode) (fun tr c => parsePipeline c = some tr) q n o' e (asgCode (checkOf mode) q n o' (rho (asgOperand q v))) := by
  cases hq : q.2.2 with
  | none =>
    have e1 : asgCode (checkOf mode) q n o' (rho (asgOperand q v)) = wordCode ('$' :: (n ++ ' ' :: (o' ++ ' ' :: rho v))) c!"-" [] := by
      unfold asgCode asgLead asgFront asgOperand
      simp [hq]
    rw [e1]
    exact .inTemplate _ hq (marks_removed hl h.ins h.nv).2
  | some g =>
    have hcall := h.call (by rw [hq]; simp)
    obtain ⟨v', hv'⟩ := good_of_covered (source_covered h.ins.source).1
    have : v' = v := by
      have := hv'.nv
      rw [h.nv] at this
      exact (Option.some.inj this).symm
    subst this
    have hg := (by decide : ∀ q ∈ places, ∀ h, q.2.2 = some h → h ≠ [] ∧ ∀ c ∈ h, c ∉ [' ', '(', ')', '"', '`', '\'']) q h.place g hq
    have hname : IsOp ('"' :: (n ++ ['"'])) (.atom ('"' :: (n ++ ['"']))) := by
      refine isOp_quoted (.inl rfl) ?_
      have : ∀ m : Text, '"' ∉ m → '\\' ∉ m → closeQuote '"' (m ++ ['"']) = some (m ++ ['"'], []) := by
        intro m
        induction m with
        | nil =>
          intro _ _
          rfl
        | cons c m ih =>
          intro h1 h2
          simp only [List.mem_cons, not_or] at h1 h2
          have := ih h1.2 h2.2
          rw [List.cons_append, closeQuote.eq_def]
          simp [this, Ne.symm h1.1, Ne.symm h2.1]
      refine this n (name_no hl.1 h.name (by decide)) (fun hm => ?_)
      have := h.name.chars _ hm
      unfold varChar at this
      rw [hl.1.1 _ (by decide)] at this
      revert this
      decide
    have hcmd : IsCmd (c!"set" ++ Razor.spaced [g, '"' :: (n ++ ['"']), rho (Razor.wrap v')]) (.call (.atom c!"set") [.atom g, .atom ('"' :: (n ++ ['"'])), meaning e]) :=
      isCmd_call (isOp_word (by decide) (by decide)) (.three (isOp_word hg.1 hg.2) hname (hv'.op hcall)) (by simp)
    have hp := parsePipeline_of hcmd
    have e2 : c!"set" ++ Razor.spaced [g, '"' :: (n ++ ['"']), rho (Razor.wrap v')] = asgFront q n o' ++ ' ' :: rho (asgOperand q v') := by
      simp [Razor.spaced, asgFront, asgOperand, hq]
    rw [e2] at hp
    unfold asgCode asgLead
    rw [hq]
    have ho := (value_signs h.value).2.2.1
    simp only [List.mem_cons, List.not_mem_nil, or_false] at ho
    cases hc : checkOf mode with
    | none => exact .set g _ hq (.inr rfl) hp
    | some f =>
      rcases ho with rfl | rfl
      · simp only
        rw [if_neg (by decide), List.nil_append]
        exact .set g _ hq (.inl rfl) hp
      · simp only
        rw [if_pos trivial]
        exact .checked g f _ hq rfl rfl hp

end

/-! ## The rule -/

theorem rule_assigned {letter : Char → Bool} {mode : Razor.Validation} {parser : Replacement → Text → Text} (hp : Assigns letter mode parser) {t t' : Text}
    (h : ∀ out : Text → Caps → Text, (∀ x caps, ∃ o, SomeOrder o ∧ out x caps = assignParser letter o mode (asgRe lineCls) x) →
      ∀ p, Regex.replaceAux letter (asgRe lineCls) out 0 p t = t') :
    (((generate defaultDelims).drop 45).take 1).foldl (applyRule letter parser) t = t' := by
  have hlen := congrArg List.length (congrArg (fun l => List.take 1 (List.drop 45 l)) table_eq)
  simp only [← List.map_drop, ← List.map_take, List.length_map, asg_entry] at hlen
  obtain ⟨r, hrule⟩ := List.length_eq_one_iff.mp hlen
  obtain ⟨e', hmem, hc⟩ := rules_compiled 45 1 r (by rw [hrule]; exact List.mem_singleton.mpr rfl)
  rw [asg_entry] at hmem
  rw [List.mem_singleton.mp hmem] at hc
  rw [hrule, List.foldl_cons, List.foldl_nil, applyRule_compiled hc]
  refine h (output parser r) (fun x caps => ?_) none
  obtain ⟨c1, c2, c3, c4⟩ := hc
  obtain ⟨o, o1, o2, o3, ho⟩ := hp r _ x c1 c4
  refine ⟨o, ⟨o1, o2, o3⟩, ?_⟩
  unfold output
  have c3' : r.parser = 1 := c3
  rw [if_neg (by rw [c3']; decide), if_neg, ho]
  rw [c1]
  exact (by decide : ¬ c!"Assign - @var := value" = emailName)

end Verif.Lemmas
