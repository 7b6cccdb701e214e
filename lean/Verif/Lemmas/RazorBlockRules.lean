import Verif.Lemmas.RazorAssignRule
import Verif.Lemmas.RazorLoop
/-!
# The rules of the commands, `else` and `end` on a text with blocks
-/

namespace Verif.Lemmas
open Verif Regex Spec Engine Razor Table Prepare _root_.Verif.Insert

/-! ## The code of a command -/

theorem expand_cmd (caps : Caps) {code b : Text} (h : Doubled code b) :
    expand (groupOf caps) (Text.replaceAll c!"${expr}" code c!"{{${reduce1} ${command} ${assign}${expr} ${reduce2}}}") =
      wordCode (groupOf caps c!"command" ++ ' ' :: (groupOf caps c!"assign" ++ b)) (groupOf caps c!"reduce1") (groupOf caps c!"reduce2") := by
  have e : Text.replaceAll c!"${expr}" code c!"{{${reduce1} ${command} ${assign}${expr} ${reduce2}}}" = c!"{{${reduce1} ${command} ${assign}" ++ (code ++ c!" ${reduce2}}}") := by
    simp [Text.replaceAll, Text.replaceAux, Text.hasPrefix, Text.dropPrefix?]
  rw [e]
  unfold expand
  simp [expandAux, Razor.groupName, nameChar, Text.hasPrefix, Text.dropPrefix?, expand_doubled h, wordCode]

/-- What is in the code of a command is before it, in its text, in its expression or after it. -/
theorem infix_cmd {letter : Char → Bool} {m g w x s b t v : Text} {r : Text × Text × Text} {e : Expr} (h : Cmd letter m g w x s b t v r e) {f a u : Text} (hne : f ≠ [])
    (h1 : ∀ c ∈ c!" }-:\t", c ∉ f) (h2 : f.head? ≠ some '=') (hi : f <:+: a ++ (cmdCode r m x (mu v) ++ u)) :
    f <:+: a ++ c!"{{" ∨ f <:+: m ∨ f <:+: x ∨ f <:+: mu v ∨ f <:+: u := by
  rcases infix_pieces h.signs hne (fun c hc => h1 c ((by decide : ∀ c ∈ c!" }-", c ∈ c!" }-:\t") c hc)) hi with hi | hi | hi
  · exact .inl hi
  · rcases infix_glue (h1 _ (by decide)) hi with hi | hi
    · exact .inr (.inl hi)
    · rcases infix_assigned h.assign (fun c hc => h1 c ((by decide : ∀ c ∈ c!": \t", c ∈ c!" }-:\t") c hc)) h2 hi with hi | hi
      · exact .inr (.inr (.inl hi))
      · exact .inr (.inr (.inr (.inl hi)))
  · exact .inr (.inr (.inr (.inr hi)))

theorem cmd_slice {letter : Char → Bool} (hl : SignLetters letter) {m g w x s b t v : Text} {r : Text × Text × Text} {e : Expr} (h : Cmd letter m g w x s b t v r e) :
    fixSlice (cmdCode r m x (mu v)) = cmdCode r m x (mu v) := by
  refine replaceAll_free (fun hi => ?_)
  have h1 : c!".slice" <:+: [] ++ (cmdCode r m x (mu v) ++ []) := by
    rw [List.append_nil]
    exact List.IsInfix.trans (⟨['$'], [' '], rfl⟩ : c!".slice" <:+: T "$.slice ") hi
  rcases infix_cmd h (by decide) (by decide) (by decide) h1 with h1 | h1 | h1 | h1 | h1
  · revert h1
    decide
  · exact command_no h.word (c := '.') (by decide) (by decide) (h1.subset (by decide))
  · exact assignment_no hl h.assign (c := '.') (by decide) (h1.subset (by decide))
  · exact code_free foreign_slice h.ins.source h.ins.noSlice v h.value h1
  · revert h1
    decide

/-! ## The rule of the commands -/

theorem cmd_begins {letter : Char → Bool} {K : Cls} (p : Option Char) (ch : Char) (t : Text) (h : ch ≠ '@') : matchAt letter (cmdRe K) p (ch :: t) = none := by
  refine no_match (fun x q c c' hf he => ?_)
  obtain ⟨r, _, m, g, y, rfl, _⟩ := fit_cmd hf
  simp only [List.cons_append, List.cons.injEq] at he
  exact h he.1

theorem wordLike_first {m : Text} (h : WordLike m) : ∃ c t, m = c :: t ∧ c ≠ '-' ∧ c ≠ '_' ∧ c ≠ '(' := by
  rcases h with hm | ⟨w, _, rfl⟩
  · simp only [List.mem_cons, List.not_mem_nil, or_false] at hm
    rcases hm with rfl | rfl | rfl | rfl | rfl <;> exact ⟨_, _, rfl, by decide, by decide, by decide⟩
  · exact ⟨_, _, rfl, by decide, by decide, by decide⟩

theorem cmd_not {letter : Char → Bool} {K : Cls} {r : Text × Text × Text} (hr : r ∈ reduceSigns) {c : Char} {t : Text} (hc : c ≠ '-' ∧ c ≠ '_')
    (hn : ∀ m g y, WordLike m → (∀ d ∈ g, isBlank d = true) → c :: t ≠ m ++ (g ++ '(' :: y)) (p : Option Char) :
    matchAt letter (cmdRe K) p ('@' :: (r.1 ++ c :: t)) = none := by
  refine no_match (fun x q k k' hf he => ?_)
  obtain ⟨r', hr', m, g, y, rfl, hm, hg⟩ := fit_cmd hf
  obtain ⟨d, z, rfl, h1, h2, _⟩ := wordLike_first hm
  have e1 : r.1 ++ c :: t = r'.1 ++ d :: (z ++ (g ++ '(' :: (y ++ q))) := by
    have := (List.cons.inj he).2
    simpa using this
  have e2 := sign_split hr hr' hc ⟨h1, h2⟩ e1
  exact hn (d :: z) g (y ++ q) hm hg (by rw [e2]; simp)

theorem cmd_not_paren {letter : Char → Bool} {K : Cls} {r : Text × Text × Text} (hr : r ∈ reduceSigns) (w s d t : Text) (p : Option Char) :
    matchAt letter (cmdRe K) p ('@' :: (parenText r w s d ++ t)) = none := by
  have e1 : parenText r w s d ++ t = r.1 ++ '(' :: (w ++ (s ++ ')' :: (d ++ t))) := by simp [parenText]
  rw [e1]
  refine cmd_not hr (by decide) (fun m g y hm _ he => ?_) p
  obtain ⟨c, z, rfl, _, _, h3⟩ := wordLike_first hm
  simp only [List.cons_append, List.cons.injEq] at he
  exact h3 he.1.symm

theorem cmd_not_else {letter : Char → Bool} {K : Cls} {r : Text × Text × Text} (hr : r ∈ reduceSigns) {t : Text} (ht : NotIf t) (p : Option Char) :
    matchAt letter (cmdRe K) p ('@' :: (r.1 ++ (c!"else" ++ t))) = none := by
  refine cmd_not hr (c := 'e') (t := c!"lse" ++ t) (by decide) (fun m g y hm hg he => ?_) p
  rcases hm with hm | ⟨w, hw, rfl⟩
  · simp only [List.mem_cons, List.not_mem_nil, or_false] at hm
    rcases hm with rfl | rfl | rfl | rfl | rfl <;> simp at he
  · refine ht w g y hw hg ?_
    simpa using he

theorem cmd_not_end {letter : Char → Bool} {K : Cls} {r : Text × Text × Text} (hr : r ∈ reduceSigns) (t : Text) (p : Option Char) :
    matchAt letter (cmdRe K) p ('@' :: (r.1 ++ (c!"end" ++ t))) = none := by
  refine cmd_not hr (c := 'e') (t := c!"nd" ++ t) (by decide) (fun m g y hm hg he => ?_) p
  rcases hm with hm | ⟨w, hw, rfl⟩
  · simp only [List.mem_cons, List.not_mem_nil, or_false] at hm
    rcases hm with rfl | rfl | rfl | rfl | rfl <;> simp at he
  · simp at he

theorem notIf_like {b u : Text} (h : NotIf b) (hu : PrefixLike b u) : NotIf u := by
  intro w v e hw hv he
  refine prefixLike_ne hu (x := w ++ (c!"if" ++ (v ++ c!"("))) ?_ (fun e he => h w v e hw hv (by rw [he]; simp)) e (by rw [he]; simp)
  simp [brace_not_blank hw, brace_not_blank hv]

theorem cmd_length (r : Text × Text × Text) (m g w x s b t : Text) :
    ('@' :: (r.1 ++ (m ++ (g ++ '(' :: (w ++ (x ++ (s ++ ')' :: (b ++ t)))))))).length - t.length = (cmdText r m g w x s b).length + 1 := by
  simp only [cmdText, List.length_cons, List.length_append]
  omega

theorem rule_cmd {letter : Char → Bool} (hl : SignLetters letter) {parser : Replacement → Text → Text} (hp : Parses letter parser) {mode : Razor.Validation} {f : Bool} {t u1 u2 u3 u4 : Text}
    (h : BlockSteps letter mode f t u1 u2 u3 u4) : (((generate defaultDelims).drop 35).take 1).foldl (applyRule letter parser) t = u1 := by
  refine rule_parsed hp cmd_entry (by decide) (fun out hout => ?_)
  induction h with
  | plain ha _ => exact replaceAux_plain cmd_begins _ ha
  | @expr f a w s d t u1 u2 u3 u4 v r e hq _ ih => exact replaceAux_over cmd_begins hq.before (part_chars hl hq).1 (fun p => cmd_not_paren hq.signs w s d t p) ih
  | @command f a m g w x s b t u1 u2 u3 u4 v r e ha hq _ ih =>
    have hsrc := source_src hl hq.ins.source
    have e1 : ∀ u, '@' :: (cmdText r m g w x s b ++ u) = '@' :: (r.1 ++ (m ++ (g ++ '(' :: (w ++ (x ++ (s ++ ')' :: (b ++ u))))))) := by simp [cmdText]
    refine replaceAux_matched cmd_begins ha.before (fun p => ?_) ih
    obtain ⟨caps, m1, _⟩ := matchAt_cmd hl.1 hq.signs hq.word hq.gap hq.blanks hq.assign hsrc.ne hsrc.first hsrc.line hq.ins.noAssign hq.after hq.rest p
    refine ⟨caps, ?_, ?_⟩
    · rw [e1, m1, cmd_length]
    · obtain ⟨o, ho, eo⟩ := hout ('@' :: cmdText r m g w x s b) caps
      rw [eo]
      refine parsed_as (res := fun c => cmdCode r m x c) hl ho hq.ins hq.value (by simp) hsrc.ne ?_ (cmd_slice hl hq)
      obtain ⟨caps, m1, m2, m3, m4, m5, m6⟩ := matchAt_cmd hl.1 hq.signs hq.word hq.gap hq.blanks hq.assign hsrc.ne hsrc.first hsrc.line hq.ins.noAssign hq.after (b := []) (.inl rfl) none
      refine ⟨caps, ?_, m2, fun code c hd => ?_⟩
      · have := e1 []
        simp only [List.append_nil] at this m1
        rw [this]
        exact m1
      · rw [expand_cmd caps hd, m3, m4, m5, m6]
        rfl
  | @els f a t u1 u2 u3 u4 r ha hr _ hi _ ih =>
    intro p
    have := replaceAux_over (out := out) (x := r.1 ++ c!"else") (q := t) cmd_begins ha.before (by simp [(sign_at hr).1]) (fun p => by rw [List.append_assoc]; exact cmd_not_else hr hi p) ih p
    simpa using this
  | @fin f a w t u1 u2 u3 u4 r ha hr _ hw _ _ ih =>
    intro p
    have := replaceAux_over (out := out) (x := r.1 ++ (c!"end" ++ w)) (q := t) cmd_begins ha.before (by simp [(sign_at hr).1, (drop_chars hw).1])
      (fun p => by rw [List.append_assoc, List.append_assoc]; exact cmd_not_end hr _ p) ih p
    simpa using this
  | @assign f a n w o w' s o' x t v u1 u2 u3 u4 e q ha hq _ ih => exact replaceAux_over cmd_begins ha.before (asg_chars (mode := mode) hl hq).1 (fun p => cmd_not_asg hl.1 hq t p) ih

/-- The same rule with other classes finds nothing more. -/
theorem cmd_idle {letter : Char → Bool} (hl : SignLetters letter) {K : Cls} {out : Text → Caps → Text} {mode : Razor.Validation} {f : Bool} {t u1 u2 u3 u4 : Text}
    (h : BlockSteps letter mode f t u1 u2 u3 u4) : ∀ p, Regex.replaceAux letter (cmdRe K) out 0 p u1 = u1 := by
  induction h with
  | plain ha _ => exact replaceAux_plain cmd_begins _ ha
  | @expr f a w s d t u1 u2 u3 u4 v r e hq _ ih => exact replaceAux_over cmd_begins hq.before (part_chars hl hq).1 (fun p => cmd_not_paren hq.signs w s d u1 p) ih
  | @command f a m g w x s b t u1 u2 u3 u4 v r e ha hq _ ih =>
    intro p
    rw [replaceAux_before cmd_begins _ _ ha.before, replaceAux_before cmd_begins _ _ (cmd_chars hl hq).2, ih]
  | @els f a t u1 u2 u3 u4 r ha hr _ hi hst ih =>
    intro p
    have := replaceAux_over (out := out) (x := r.1 ++ c!"else") (q := u1) cmd_begins ha.before (by simp [(sign_at hr).1])
      (fun p => by rw [List.append_assoc]; exact cmd_not_else hr (notIf_like hi (block_like hst).1) p) ih p
    simpa using this
  | @fin f a w t u1 u2 u3 u4 r ha hr _ hw _ _ ih =>
    intro p
    have := replaceAux_over (out := out) (x := r.1 ++ (c!"end" ++ w)) (q := u1) cmd_begins ha.before (by simp [(sign_at hr).1, (drop_chars hw).1])
      (fun p => by rw [List.append_assoc, List.append_assoc]; exact cmd_not_end hr _ p) ih p
    simpa using this
  | @assign f a n w o w' s o' x t v u1 u2 u3 u4 e q ha hq _ ih => exact replaceAux_over cmd_begins ha.before (asg_chars (mode := mode) hl hq).1 (fun p => cmd_not_asg hl.1 hq u1 p) ih

theorem rules_cmd_idle {letter : Char → Bool} (hl : SignLetters letter) (parser : Replacement → Text → Text) {mode : Razor.Validation} {f : Bool} {t u1 u2 u3 u4 : Text}
    (h : BlockSteps letter mode f t u1 u2 u3 u4) : (((generate defaultDelims).drop 36).take 7).foldl (applyRule letter parser) u1 = u1 := by
  refine foldl_idle parser _ (fun r hr => ?_)
  obtain ⟨e, hmem, hcomp⟩ := rules_compiled 36 7 r hr
  have hre : e.2.2.2 ∈ laterCls.map cmdRe := by
    rw [← cmd_entries]
    exact List.mem_map_of_mem hmem
  obtain ⟨K, _, hK⟩ := List.mem_map.mp hre
  rw [applyRule_compiled hcomp]
  unfold replaceRe
  rw [← hK]
  exact cmd_idle hl h none

/-! ## `else` and `end` -/

theorem word_not_paren {letter : Char → Bool} {r : Text × Text × Text} (hr : r ∈ reduceSigns) (w s d t : Text) (p : Option Char) :
    matchAt letter elseRe p ('@' :: (parenText r w s d ++ t)) = none ∧ matchAt letter finRe p ('@' :: (parenText r w s d ++ t)) = none := by
  have e1 : parenText r w s d ++ t = r.1 ++ '(' :: (w ++ (s ++ ')' :: (d ++ t))) := by simp [parenText]
  rw [e1]
  constructor
  · refine no_match (fun x q k k' hf he => ?_)
    obtain ⟨r', hr', rfl⟩ := fit_else hf
    have := sign_split hr hr' (c := '(') (d := 'e') (y := c!"lse" ++ q) (by decide) (by decide) (by have := (List.cons.inj he).2; simpa using this)
    simp at this
  · refine no_match (fun x q k k' hf he => ?_)
    obtain ⟨r', hr', y, rfl⟩ := fit_fin hf
    have := sign_split hr hr' (c := '(') (d := 'e') (y := c!"nd" ++ (y ++ q)) (by decide) (by decide) (by have := (List.cons.inj he).2; simpa using this)
    simp at this

theorem block_else {letter : Char → Bool} (hl : SignLetters letter) (parser : Replacement → Text → Text) {mode : Razor.Validation} {f : Bool} {t u1 u2 u3 u4 : Text}
    (h : BlockSteps letter mode f t u1 u2 u3 u4) : (((generate defaultDelims).drop 43).take 1).foldl (applyRule letter parser) u1 = u2 := by
  refine rule_one parser else_entry (fun out ho => ?_)
  have hout : ∀ x caps, out x caps = wordCode c!"else" (groupOf caps c!"reduce1") (groupOf caps c!"reduce2") := fun x caps => by rw [ho, expand_else]
  induction h with
  | plain ha _ => exact replaceAux_plain else_starts _ ha
  | @expr f a w s d t u1 u2 u3 u4 v r e hq _ ih => exact replaceAux_over else_starts hq.before (part_chars hl hq).1 (fun p => (word_not_paren hq.signs w s d u1 p).1) ih
  | @command f a m g w x s b t u1 u2 u3 u4 v r e ha hq _ ih =>
    intro p
    rw [replaceAux_before else_starts _ _ ha.before, replaceAux_before else_starts _ _ (cmd_chars hl hq).2, ih]
  | @els f a t u1 u2 u3 u4 r ha hr _ _ _ ih =>
    intro p
    have := replaceAux_match (out := out) (x := r.1 ++ c!"else") (q := u1) (code := wordCode c!"else" r.2.1 r.2.2) else_starts ha.before (fun p => by
      obtain ⟨caps, h1, h2, h3⟩ := matchAt_else letter hr u1 p
      refine ⟨caps, ?_, fun m => by rw [hout, h2, h3]⟩
      rw [List.append_assoc, h1]
      rfl) ih p
    simpa using this
  | @fin f a w t u1 u2 u3 u4 r ha hr _ hw _ _ ih =>
    intro p
    have := replaceAux_over (out := out) (x := r.1 ++ (c!"end" ++ w)) (q := u1) else_starts ha.before (by simp [(sign_at hr).1, (drop_chars hw).1])
      (fun p => by rw [List.append_assoc, List.append_assoc]; exact else_not_fin hr _ p) ih p
    simpa using this
  | @assign f a n w o w' s o' x t v u1 u2 u3 u4 e q ha hq _ ih => exact replaceAux_over else_starts ha.before (asg_chars (mode := mode) hl hq).1 (fun p => (word_not_asg hl.1 hq u1 p).1) ih

theorem block_fin {letter : Char → Bool} (hl : SignLetters letter) (parser : Replacement → Text → Text) {mode : Razor.Validation} {f : Bool} {t u1 u2 u3 u4 : Text}
    (h : BlockSteps letter mode f t u1 u2 u3 u4) : (((generate defaultDelims).drop 44).take 1).foldl (applyRule letter parser) u2 = u3 := by
  refine rule_one parser fin_entry (fun out ho => ?_)
  have hout : ∀ x caps, out x caps = wordCode c!"end" (groupOf caps c!"reduce1") (groupOf caps c!"reduce2") := fun x caps => by rw [ho, expand_fin]
  induction h with
  | plain ha _ => exact replaceAux_plain fin_starts _ ha
  | @expr f a w s d t u1 u2 u3 u4 v r e hq _ ih => exact replaceAux_over fin_starts hq.before (part_chars hl hq).1 (fun p => (word_not_paren hq.signs w s d u2 p).2) ih
  | @command f a m g w x s b t u1 u2 u3 u4 v r e ha hq _ ih =>
    intro p
    rw [replaceAux_before fin_starts _ _ ha.before, replaceAux_before fin_starts _ _ (cmd_chars hl hq).2, ih]
  | @els f a t u1 u2 u3 u4 r ha hr _ _ _ ih =>
    intro p
    rw [replaceAux_before fin_starts _ _ ha.before, replaceAux_before fin_starts _ _ (wordCode_at hr (by decide)), ih]
  | @fin f a w t u1 u2 u3 u4 r ha hr _ hw hcl hst ih =>
    intro p
    have := replaceAux_match (out := out) (x := r.1 ++ (c!"end" ++ w)) (q := u2) (code := wordCode c!"end" r.2.1 r.2.2) fin_starts ha.before (fun p => by
      obtain ⟨caps, h1, h2, h3⟩ := matchAt_fin letter hr (hcl u2 (block_like hst).2.1) p
      refine ⟨caps, ?_, fun m => by rw [hout, h2, h3]⟩
      rw [List.append_assoc, List.append_assoc, h1]
      simp
      omega) ih p
    simpa using this
  | @assign f a n w o w' s o' x t v u1 u2 u3 u4 e q ha hq _ ih => exact replaceAux_over fin_starts ha.before (asg_chars (mode := mode) hl hq).1 (fun p => (word_not_asg hl.1 hq u2 p).2) ih

theorem block_assign {letter : Char → Bool} (hl : SignLetters letter) {mode : Razor.Validation} {parser : Replacement → Text → Text} (hp : Assigns letter mode parser) {f : Bool}
    {t u1 u2 u3 u4 : Text} (h : BlockSteps letter mode f t u1 u2 u3 u4) : (((generate defaultDelims).drop 45).take 1).foldl (applyRule letter parser) u3 = u4 := by
  refine rule_assigned hp (fun out hout => ?_)
  induction h with
  | plain ha _ => exact replaceAux_plain asg_begins _ ha
  | @expr f a w s d t u1 u2 u3 u4 v r e hq _ ih =>
    exact replaceAux_over asg_begins hq.before (part_chars hl hq).1 (fun p => asg_not_paren hl.1 hq.signs hq.noUnder w s d u3 p) ih
  | @command f a m g w x s b t u1 u2 u3 u4 v r e ha hq _ ih =>
    intro p
    rw [replaceAux_before asg_begins _ _ ha.before, replaceAux_before asg_begins _ _ (cmd_chars hl hq).2, ih]
  | @els f a t u1 u2 u3 u4 r ha hr _ _ _ ih =>
    intro p
    rw [replaceAux_before asg_begins _ _ ha.before, replaceAux_before asg_begins _ _ (wordCode_at hr (by decide)), ih]
  | @fin f a w t u1 u2 u3 u4 r ha hr _ hw hcl hst ih =>
    intro p
    rw [replaceAux_before asg_begins _ _ ha.before, replaceAux_before asg_begins _ _ (wordCode_at hr (by decide)), ih]
  | @assign f a n w o w' s o' x t v u1 u2 u3 u4 e q ha hq hst ih =>
    refine replaceAux_matched asg_begins ha.before (fun p => ?_) ih
    obtain ⟨caps, m1, _⟩ := asg_match hl hq (block_head hst hq.rest) p
    refine ⟨caps, m1, ?_⟩
    obtain ⟨o₀, ho, eo⟩ := hout ('@' :: asgText q n w o w' s) caps
    rw [eo]
    exact asg_parsed hl ho mode hq

/-! ## What the later rules look for -/

/-- The signs of the later rules. -/
def blockSigns : List Text := [c!")[", c!"♠", c!"`", c!"\"<<", c!"\"{{", c!"_=!"]

theorem foreign_bracket : Foreign c!"[" c!"[" := by
  constructor <;> decide +kernel

theorem keyword_infix {f a word u : Text} {r : Text × Text × Text} (hr : r ∈ reduceSigns) (hw : ∀ c ∈ word, c.isAlpha = true) (hf : f ∈ blockSigns)
    (h : f <:+: a ++ (wordCode word r.2.1 r.2.2 ++ u)) : f <:+: a ++ c!"{{" ∨ f <:+: u := by
  obtain ⟨h1, h2⟩ := (by decide : ∀ f ∈ blockSigns, f ≠ [] ∧ ∀ x ∈ c!" }-", x ∉ f) f hf
  rcases infix_pieces hr h1 h2 h with h | h | h
  · exact .inl h
  · obtain ⟨c, hc, hn⟩ := (by decide : ∀ f ∈ blockSigns, ∃ c ∈ f, c.isAlpha = false) f hf
    have := hw c (h.subset hc)
    rw [hn] at this
    cases this
  · exact .inr h

/-- The signs that are neither in a name nor in an operation. -/
def plainSigns : List Text := [c!"@", c!"♠", c!"`", c!"\"<<", c!"\"{{", c!"_=!"]

theorem valueText_infix {letter : Char → Bool} (hl : SignLetters letter) {n w o w' s o' x t v : Text} {q : Text × Text × Option Text} {e : Expr}
    (h : Asg letter n w o w' s o' x t v q e) {f : Text} (hf : f ∈ plainSigns) (hi : f <:+: x) : f <:+: s := by
  obtain ⟨hn1, hn2⟩ : (∀ c ∈ c!" ()", c ∉ f) ∧ f ≠ [] := (by decide : ∀ f ∈ plainSigns, (∀ c ∈ c!" ()", c ∉ f) ∧ f ≠ []) f hf
  obtain ⟨d, hd, hd1, hd2⟩ := (by decide : ∀ f ∈ plainSigns, ∃ d ∈ f, (d = '♠' ∨ d ∈ c!"@`\"!") ∧ ∀ x ∈ assignOperators, d ∉ x) f hf
  cases h.value with
  | same _ _ => exact hi
  | operation y hy =>
    have e1 : q.2.1 ++ n ++ ' ' :: (y ++ (c!" (" ++ (s ++ c!")"))) = (q.2.1 ++ n) ++ ' ' :: (y ++ ' ' :: ([] ++ '(' :: (s ++ ')' :: []))) := by simp
    rw [e1] at hi
    rcases infix_glue (hn1 _ (by decide)) hi with hi | hi
    · exfalso
      rcases List.mem_append.mp (hi.subset hd) with hm | hm
      · exact (by decide : ∀ q ∈ places, ∀ c ∈ q.2.1, c ≠ '♠' ∧ c ∉ c!"@`\"!") q h.place d hm |>.elim (fun k1 k2 => hd1.elim k1 k2)
      · rcases hd1 with rfl | hd1
        · exact name_spade hl h.name (by decide) hm
        · exact name_no hl.1 h.name ((by decide : ∀ d ∈ c!"@`\"!", d ∈ c!"@.[`<{!\"()$ \t\n,:=-;}") d hd1) hm
    · rcases infix_glue (hn1 _ (by decide)) hi with hi | hi
      · exact absurd (hi.subset hd) (hd2 y hy)
      · rcases infix_glue (hn1 _ (by decide)) hi with hi | hi
        · exact absurd (List.infix_nil.mp hi) hn2
        · rcases infix_glue (hn1 _ (by decide)) hi with hi | hi
          · exact hi
          · exact absurd (List.infix_nil.mp hi) hn2

theorem block_later {letter : Char → Bool} (hl : SignLetters letter) {f : Text} (hf : f ∈ blockSigns) {mode : Razor.Validation} {k : Bool} {t u1 u2 u3 u4 : Text} (h : BlockSteps letter mode k t u1 u2 u3 u4) :
    ∀ x : Text, (∀ a, NotQuoted a → NotQuoted (x ++ a)) → f <:+: x ++ u4 → f <:+: x ++ t := by
  have hne := (by decide : ∀ f ∈ blockSigns, f ≠ []) f hf
  have hbr := (by decide : ∀ f ∈ blockSigns, f = c!"\"{{" ∨ '{' ∉ f) f hf
  have front : ∀ {a : Text}, NotQuoted a → f <:+: a ++ c!"{{" → f <:+: a := by
    intro a hq hi
    rcases hbr with rfl | hb
    · exact quoted_front hq hi
    · rcases infix_glue hb hi with hi | hi
      · exact hi
      · exact absurd hi (infix_none hne (fun c hc => by
          rw [List.mem_singleton.mp hc]
          exact hb))
  induction h with
  | plain _ _ => exact fun x _ h => h
  | @expr k a w s d t u1 u2 u3 u4 v r e hq _ ih =>
    intro x hx h
    have e1 : ∀ u, x ++ (a ++ '@' :: (parenText r w s d ++ u)) = (x ++ (a ++ '@' :: parenText r w s d)) ++ u := by simp
    rw [e1] at h ⊢
    refine ih _ (fun b hb => ?_) h
    rcases hq.dropped with rfl | ⟨y, _, rfl⟩
    · have := notQuoted_front (y := x ++ (a ++ '@' :: (r.1 ++ '(' :: (w ++ s)))) (c := ')') (by decide) hb
      simpa [parenText] using this
    · have := notQuoted_front (y := x ++ (a ++ '@' :: (r.1 ++ '(' :: (w ++ (s ++ ')' :: y))))) (c := ';') (by decide) hb
      simpa [parenText] using this
  | @command k a m g w x s b t u1 u2 u3 u4 v r e ha hq _ ih =>
    intro y hy h
    rw [← List.append_assoc] at h
    have hsep := (by decide : ∀ f ∈ blockSigns, (∀ c ∈ c!" }-:\t", c ∉ f) ∧ f.head? ≠ some '=') f hf
    rcases infix_cmd hq hne hsep.1 hsep.2 h with h | h | h | h | h
    · exact (front (hy a ha.quote) h).trans ⟨[], '@' :: (cmdText r m g w x s b ++ t), by simp⟩
    · obtain ⟨c, hc, h1, h2⟩ := (by decide : ∀ f ∈ blockSigns, ∃ c ∈ f, c.isAlpha = false ∧ isBlank c = false) f hf
      exact absurd (h.subset hc) (command_no hq.word h1 h2)
    · exact h.trans ⟨y ++ (a ++ '@' :: (r.1 ++ (m ++ (g ++ '(' :: w)))), s ++ ')' :: (b ++ t), by simp [cmdText]⟩
    · have hin : f <:+: s := by
        refine Classical.byContradiction fun hn => ?_
        rcases (by decide : ∀ f ∈ blockSigns, f = c!")[" ∨ f = c!"♠" ∨ f ∈ [c!"@", c!"`", c!"\"<<", c!"\"{{", c!"_=!"]) f hf with rfl | rfl | hf
        · refine code_free foreign_bracket hq.ins.source (fun hi => ?_) v hq.value (List.IsInfix.trans ⟨[')'], [], rfl⟩ h)
          exact hq.plain '[' (by decide) (hi.subset (by decide))
        · exact code_free foreign_spade hq.ins.source hn v hq.value h
        · exact code_free (foreign_later f hf) hq.ins.source hn v hq.value h
      exact hin.trans ⟨y ++ (a ++ '@' :: (r.1 ++ (m ++ (g ++ '(' :: (w ++ x))))), ')' :: (b ++ t), by simp [cmdText]⟩
    · exact (ih [] (fun _ h => h) h).trans ⟨y ++ (a ++ '@' :: cmdText r m g w x s b), [], by simp⟩
  | @els k a t u1 u2 u3 u4 r ha hr _ _ _ ih =>
    intro x hx h
    rw [← List.append_assoc] at h
    rcases keyword_infix hr (by decide) hf h with h | h
    · exact (front (hx a ha.quote) h).trans ⟨[], '@' :: (r.1 ++ (c!"else" ++ t)), by simp⟩
    · exact (ih [] (fun _ h => h) h).trans ⟨x ++ (a ++ '@' :: (r.1 ++ c!"else")), [], by simp⟩
  | @fin k a w t u1 u2 u3 u4 r ha hr _ _ _ _ ih =>
    intro x hx h
    rw [← List.append_assoc] at h
    rcases keyword_infix hr (by decide) hf h with h | h
    · exact (front (hx a ha.quote) h).trans ⟨[], '@' :: (r.1 ++ (c!"end" ++ (w ++ t))), by simp⟩
    · exact (ih [] (fun _ h => h) h).trans ⟨x ++ (a ++ '@' :: (r.1 ++ (c!"end" ++ w))), [], by simp⟩
  | @assign k a n w o w' s o' x t v u1 u2 u3 u4 e q ha hq _ ih =>
    intro y hy h
    rw [← List.append_assoc] at h
    have hsep := (by decide : ∀ f ∈ blockSigns, (∀ c ∈ c!" }-", c ∉ f) ∧ ∃ d ∈ f, d ∈ c!"[♠`<{!") f hf
    rcases infix_asg hl hq hne hsep.1 hsep.2 h with h | h | h
    · exact (front (hy a ha.quote) h).trans ⟨[], '@' :: (asgText q n w o w' s ++ t), by simp⟩
    · have hin : f <:+: s := by
        refine Classical.byContradiction fun hn => ?_
        rcases (by decide : ∀ f ∈ blockSigns, f = c!")[" ∨ f = c!"♠" ∨ f ∈ [c!"@", c!"`", c!"\"<<", c!"\"{{", c!"_=!"]) f hf with rfl | rfl | hf
        · refine operand_free foreign_bracket hq (fun hi => ?_) (List.IsInfix.trans ⟨[')'], [], rfl⟩ h)
          exact hq.bracket (hi.subset (by decide))
        · exact operand_free foreign_spade hq (fun hi => hn (valueText_infix hl hq (by decide) hi)) h
        · exact operand_free (foreign_later f hf) hq (fun hi => hn (valueText_infix hl hq ((by decide : ∀ f ∈ [c!"@", c!"`", c!"\"<<", c!"\"{{", c!"_=!"], f ∈ plainSigns) f hf) hi)) h
      exact hin.trans ⟨y ++ (a ++ '@' :: (q.1 ++ (n ++ (w ++ (o ++ w'))))), t, by simp [asgText]⟩
    · exact (ih [] (fun _ h => h) h).trans ⟨y ++ (a ++ '@' :: asgText q n w o w' s), [], by simp⟩

/-! ## The expressions that remain -/

theorem alone_line {y z z' : Text} (hy : '\n' ∈ y) (h : Alone (y ++ z)) : Alone (y ++ z') := by
  intro u v hu
  rcases List.append_eq_append_iff.mp hu with ⟨q, h1, h2⟩ | ⟨q, h1, h2⟩
  · exact .inl (by rw [h1]; simp [hy])
  · cases q with
    | nil =>
      rw [List.append_nil] at h1
      exact .inl (by rw [← h1]; exact hy)
    | cons c q =>
      simp only [List.cons_append, List.cons.injEq] at h2
      exact h u (q ++ z) (by rw [h1, h2.1]; simp)

theorem block_alone {letter : Char → Bool} {mode : Razor.Validation} {k : Bool} {t u1 u2 u3 u4 : Text} (h : BlockSteps letter mode k t u1 u2 u3 u4) : k = false → ∀ x, Alone (x ++ t) → Alone (x ++ u4) := by
  have key : ∀ {k : Bool} {a : Text}, Before k a → k = false → ∀ (x z z' : Text), Alone (x ++ (a ++ z)) → Alone (x ++ (a ++ z')) := by
    intro k a ha hk x z z' h
    rw [← List.append_assoc] at h ⊢
    refine alone_line ?_ h
    rcases ha.line with h | h
    · rw [hk] at h
      cases h
    · simp [h]
  induction h with
  | plain _ _ => exact fun _ _ h => h
  | @expr k a w s d t u1 u2 u3 u4 v r e hq _ ih =>
    intro _ x hx
    have e1 : ∀ u, x ++ (a ++ '@' :: (parenText r w s d ++ u)) = (x ++ (a ++ '@' :: parenText r w s d)) ++ u := by simp
    rw [e1] at hx ⊢
    exact ih rfl _ hx
  | command ha _ _ _ => exact fun hk x hx => key ha hk x _ _ hx
  | els ha _ _ _ _ _ => exact fun hk x hx => key ha hk x _ _ hx
  | fin ha _ _ _ _ _ _ => exact fun hk x hx => key ha hk x _ _ hx
  | assign ha _ _ _ => exact fun hk x hx => key ha hk x _ _ hx

theorem word_marks {r : Text × Text × Text} (hr : r ∈ reduceSigns) {a c c' : Text} (ha : ¬ Engine.callMark <:+: a) (hc : Text.replaceAll Engine.callMark [] c = c') (u : Text) :
    Text.replaceAll Engine.callMark [] (a ++ (wordCode c r.2.1 r.2.2 ++ u)) = a ++ (wordCode c' r.2.1 r.2.2 ++ Text.replaceAll Engine.callMark [] u) := by
  obtain ⟨s1, s2⟩ := sign_parts hr
  have e1 : ∀ c u, a ++ (wordCode c r.2.1 r.2.2 ++ u) = a ++ ((c!"{{" ++ r.2.1 ++ c!" ") ++ (c ++ ((c!" " ++ r.2.2 ++ c!"}}") ++ u))) := by simp [wordCode]
  have hn : ∀ c ∈ c!"{ }-", c ∉ callMark := by decide
  rw [e1, e1, replaceAll_around (by decide) (by simp), replaceAll_around (by decide) (by simp), replaceAll_free ha, hc]
  · intro c hm
    simp only [List.mem_append] at hm
    rcases hm with (hm | hm) | hm
    · exact hn c (by rw [List.mem_singleton.mp hm]; decide)
    · exact hn c (by rw [s2 c hm]; decide)
    · exact hn c ((by decide : ∀ x ∈ c!"}}", x ∈ c!"{ }-") c hm)
  · intro c hm
    simp only [List.mem_append] at hm
    rcases hm with (hm | hm) | hm
    · exact hn c ((by decide : ∀ x ∈ c!"{{", x ∈ c!"{ }-") c hm)
    · exact hn c (by rw [s1 c hm]; decide)
    · exact hn c (by rw [List.mem_singleton.mp hm]; decide)

theorem cmd_marks {letter : Char → Bool} (hl : SignLetters letter) {m g w x s b t v : Text} {r : Text × Text × Text} {e : Expr} (h : Cmd letter m g w x s b t v r e) :
    Text.replaceAll Engine.callMark [] (m ++ ' ' :: (x ++ mu v)) = m ++ ' ' :: (x ++ rho v) := by
  have e1 : ∀ c, m ++ ' ' :: (x ++ c) = m ++ (c!" " ++ (x ++ c)) := by simp
  have hm : ¬ Engine.callMark <:+: m := fun hi => command_no h.word (c := '_') (by decide) (by decide) (hi.subset (by decide))
  have hx : Text.replaceAll Engine.callMark [] (x ++ mu v) = x ++ rho v := by
    have hmu := (marks_removed hl h.ins h.value).1
    rcases assignment_end h.assign with hx | ⟨y, z, hx, hz⟩
    · rw [hx]
      exact hmu
    · have e2 : ∀ c, x ++ c = y ++ ((':' :: '=' :: z) ++ c) := by simp [hx]
      have hy : ¬ Engine.callMark <:+: y := fun hi => h.unmarked (hi.trans (by rw [hx]; exact (List.prefix_append _ _).isInfix))
      rw [e2, e2, replaceAll_around (by decide) (by simp), replaceAll_free hy, hmu]
      intro c hc
      simp only [List.mem_cons] at hc
      rcases hc with rfl | rfl | hc
      · decide
      · decide
      · rcases blank_or (hz c hc) with rfl | rfl <;> decide
  rw [e1, e1, replaceAll_around (by decide) (by simp) (by decide), replaceAll_free hm, hx]

/-- The expressions that remain after the commands, and what the whole text becomes. -/
theorem block_result {letter : Char → Bool} (hl : SignLetters letter) {mode : Razor.Validation} {k : Bool} {t u1 u2 u3 u4 : Text} (h : BlockSteps letter mode k t u1 u2 u3 u4) :
    ∃ t1 t2 t3, ParenSteps letter u4 t1 t2 t3 ∧ Blocks letter (checkOf mode) (fun tr c => parsePipeline c = some tr) k t t3 := by
  have coded : ∀ {k : Bool} {a c c' : Text} {r : Text × Text × Text} {u t1 t2 t3 : Text}, Before k a → r ∈ reduceSigns → '@' ∉ wordCode c r.2.1 r.2.2 →
      Text.replaceAll Engine.callMark [] c = c' → ParenSteps letter u t1 t2 t3 →
      ∃ t1' t2', ParenSteps letter (a ++ (wordCode c r.2.1 r.2.2 ++ u)) t1' t2' (a ++ (wordCode c' r.2.1 r.2.2 ++ t3)) := by
    intro k a c c' r u t1 t2 t3 ha hr hat hc h
    have hcd : Coded (a ++ wordCode c r.2.1 r.2.2) (a ++ wordCode c' r.2.1 r.2.2) := by
      refine ⟨by simp [ha.before, hat], ⟨a ++ (c!"{{" ++ (r.2.1 ++ (c!" " ++ (c ++ (c!" " ++ r.2.2))))), by simp [wordCode]⟩, fun u => ?_⟩
      have := word_marks hr ha.unmarked hc u
      simpa using this
    have := ParenSteps.code hcd h
    simp only [List.append_assoc] at this
    exact ⟨_, _, this⟩
  induction h with
  | @plain k a ha hm => exact ⟨a, a, a, .plain ha hm, .plain k a ha⟩
  | @expr k a w s d t u1 u2 u3 u4 v r e hq hst ih =>
    obtain ⟨t1, t2, t3, h1, h2⟩ := ih
    have hp : Part letter a w s d u4 v r e :=
      ⟨hq.before, hq.comment, hq.quote, hq.signs, hq.noUnder, hq.blanks, hq.ins, hq.value, hq.dropped,
        fun u hu => hq.remains u (fun x hx hxu => (block_like hst).2.2.2 x hx (hu x hx hxu)), block_alone hst rfl d hq.line, hq.unmarked⟩
    have hres : Blocks letter (checkOf mode) (fun tr c => parsePipeline c = some tr) k (a ++ '@' :: (parenText r w s d ++ t)) (a ++ (wordCode (rho v) r.2.1 r.2.2 ++ t3)) := by
      have eq : a ++ '@' :: (parenText r w s d ++ t) = a ++ '@' :: (r.1 ++ '(' :: (w ++ (s ++ ')' :: (d ++ t)))) := by simp [parenText]
      rw [eq]
      exact .expr k a w s (rho v) (d ++ t) t t3 e r hq.before hq.comment hq.quote hq.signs hq.noUnder hq.blanks hq.ins (marks_removed hl hq.ins hq.value).2 hq.line
        (hq.remains t fun _ _ h => h) h2
    by_cases hs : SelName letter s
    · exact ⟨_, _, _, .name hp hs h1, hres⟩
    · exact ⟨_, _, _, .other hp hs h1, hres⟩
  | @command k a m g w x s b t u1 u2 u3 u4 v r e ha hq _ ih =>
    obtain ⟨t1, t2, t3, h1, h2⟩ := ih
    obtain ⟨t1', t2', h3⟩ := coded ha hq.signs (cmd_chars hl hq).2 (cmd_marks hl hq) h1
    refine ⟨t1', t2', _, h3, ?_⟩
    have eq : a ++ '@' :: (cmdText r m g w x s b ++ t) = a ++ '@' :: (r.1 ++ (m ++ (g ++ '(' :: (w ++ (x ++ (s ++ ')' :: (b ++ t))))))) := by simp [cmdText]
    rw [eq]
    exact .command k a m g w x s (rho v) b t t3 e r ha.before ha.comment ha.quote ha.line hq.signs hq.word hq.gap hq.blanks hq.assign hq.ins hq.plain
      (marks_removed hl hq.ins hq.value).2 hq.after hq.rest h2
  | @els k a t u1 u2 u3 u4 r ha hr hh hi _ ih =>
    obtain ⟨t1, t2, t3, h1, h2⟩ := ih
    obtain ⟨t1', t2', h3⟩ := coded ha hr (wordCode_at hr (by decide)) (replaceAll_free (s := c!"else") (by decide)) h1
    exact ⟨t1', t2', _, h3, .els k a t t3 r ha.before ha.comment ha.quote ha.line hr hh hi h2⟩
  | @fin k a w t u1 u2 u3 u4 r ha hr hh hw hcl _ ih =>
    obtain ⟨t1, t2, t3, h1, h2⟩ := ih
    obtain ⟨t1', t2', h3⟩ := coded ha hr (wordCode_at hr (by decide)) (replaceAll_free (s := c!"end") (by decide)) h1
    exact ⟨t1', t2', _, h3, .fin k a (w ++ t) t t3 r ha.before ha.comment ha.quote ha.line hr hh (hcl t fun _ _ h => h) h2⟩
  | @assign k a n w o w' s o' x t v u1 u2 u3 u4 e q ha hq _ ih =>
    obtain ⟨t1, t2, t3, h1, h2⟩ := ih
    have hb0 : Before true ([] : Text) := ⟨by simp, fun u m v hm _ he => (by decide : ∀ m ∈ commentSigns, m ≠ []) m hm (by simp at he; exact he.2.1), fun u => by simp, .inl rfl, by decide⟩
    have hat := (asg_chars (mode := mode) hl hq).2
    have hsrc : a ++ '@' :: (asgText q n w o w' s ++ t) = a ++ '@' :: (q.1 ++ (n ++ (w ++ (o ++ (w' ++ (s ++ t)))))) := by simp [asgText]
    have hres : Blocks letter (checkOf mode) (fun tr c => parsePipeline c = some tr) k (a ++ '@' :: (asgText q n w o w' s ++ t)) (a ++ (asgCode (checkOf mode) q n o' (rho (asgOperand q v)) ++ t3)) := by
      rw [hsrc]
      exact .assign k a n w o w' s o' x _ t t3 e q ha.before ha.comment ha.quote ha.line hq.place hq.name hq.blanks hq.value hq.gap hq.blanks' hq.ne hq.first hq.ins hq.bracket
        hq.call (asg_meaning hl mode hq) hq.rest h2
    unfold asgCode at hat hres ⊢
    rcases lead_cases mode q n o' with e1 | ⟨f, hf, e1⟩
    · rw [e1, List.nil_append] at hat hres ⊢
      obtain ⟨t1', t2', h3⟩ := coded (r := (c!"-", c!"-", [])) ha (by decide) hat (asg_marks hl hq) h1
      exact ⟨t1', t2', _, h3, hres⟩
    · rw [e1] at hat hres ⊢
      rw [List.append_assoc] at hres ⊢
      obtain ⟨t1', t2', h3⟩ := coded (a := []) (r := (c!"-", c!"-", [])) hb0 (by decide) (fun hm => hat (List.mem_append_right _ hm)) (asg_marks hl hq) h1
      rw [List.nil_append, List.nil_append] at h3
      obtain ⟨t1'', t2'', h4⟩ := coded (r := (c!"-", c!"-", [])) ha (by decide) (fun hm => hat (List.mem_append_left _ hm)) (replaceAll_free (check_marks hf hq)) h3
      exact ⟨t1'', t2'', _, h4, hres⟩

/-- All the rules on a text with blocks. -/
theorem rules_block {letter : Char → Bool} (hl : SignLetters letter) {parser : Replacement → Text → Text} (hp : Parses letter parser) {mode : Razor.Validation} (ha : Assigns letter mode parser)
    {z t u1 u2 u3 u4 t1 t2 t3 : Text} {k : Bool}
    (hz : Loops z t) (h : BlockSteps letter mode k t u1 u2 u3 u4) (h' : ParenSteps letter u4 t1 t2 t3) (hs : NoOtherSign z) (hb : ¬ c!")[" <:+: z) (hm : '♠' ∉ z) :
    Text.replaceAll callMark [] (((generate defaultDelims).drop 2).foldl (applyRule letter parser) z) = t3 := by
  have hs' : NoOtherSign t := fun f hf hi => by
    obtain ⟨f', c, e, hc, h1, h2⟩ : ∃ f' c, f = f' ++ [c] ∧ c ∉ c!"range(" ∧ '@' ∉ f ∧ '(' ∉ f := by
      have := (by decide : ∀ f ∈ otherSigns, f = f.dropLast ++ [f.getLastD ' '] ∧ f.getLastD ' ' ∉ c!"range(" ∧ '@' ∉ f ∧ '(' ∉ f) f hf
      exact ⟨_, _, this⟩
    exact hs f hf (loop_infix hz e hc h1 h2 hi)
  have hbt : ¬ c!")[" <:+: t := fun hi => hb (loop_infix hz (f' := [')']) (c := '[') rfl (by decide) (by decide) (by decide) hi)
  have hmt : '♠' ∉ t := fun hi => hm ((loop_infix hz (f := ['♠']) (f' := []) rfl (by decide) (by decide) (by decide) (by obtain ⟨u, v, e⟩ := List.append_of_mem hi; exact ⟨u, v, by rw [e]; simp⟩)).subset (List.mem_singleton.mpr rfl))
  have shape := block_shape hl h
  have later : ∀ f ∈ blockSigns, ¬ f <:+: t → ¬ f <:+: u4 := fun f hf hn hi => hn (block_later hl hf h [] (fun _ h => h) hi)
  have hb3 := later _ (by decide) hbt
  rw [split_rules 2 16, rules_before_block hl.1 parser (loop_shape hl.1 hz shape) hs 2 (by decide), split_rules 18 1, rule_loop parser hz, split_rules 19 16,
    rules_before_block hl.1 parser shape.loops hs' 19 (by decide), split_rules 35 1, rule_cmd hl hp h, split_rules 36 7, rules_cmd_idle hl parser h,
    split_rules 43 1, block_else hl parser h, split_rules 44 1, block_fin hl parser h, split_rules 45 1, block_assign hl ha h, split_rules 46 96, rules_to_paren hl.1 parser (paren_shape hl h') hb3]
  refine rules_from_paren hl hp h' hb3 (fun hi => ?_) (fun f hf => ?_)
  · exact later c!"♠" (by decide) (fun hi => hmt (hi.subset (List.mem_singleton.mpr rfl))) (one_infix hi)
  · exact later f ((by decide : ∀ f ∈ [c!"`", c!"\"<<", c!"\"{{", c!"_=!"], f ∈ blockSigns) f hf)
      (hs' f ((by decide : ∀ f ∈ [c!"`", c!"\"<<", c!"\"{{", c!"_=!"], f ∈ otherSigns) f hf))

end Verif.Lemmas
