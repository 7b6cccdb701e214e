import Verif.Lemmas.RazorSingleMatch
import Verif.Lemmas.RazorBlockRules
/-!
# The rule of the commands of a single line in razor
-/

namespace Verif.Lemmas
open Verif Regex Spec Engine Razor Table Prepare _root_.Verif.Insert

/-! ## The rules before -/

/-- The texts of the rules before this one. -/
def singleIdle (r : Re) : Bool := ([c!"${", c!"{{ /*", c!"*/ }}"] ++ autoSigns).any (fun f => needsAll f r) || r == loopRe || callBad true r

theorem table_single : ∀ e ∈ (table.drop 2).take 17, singleIdle e.2.2.2 = true := by
  decide +kernel

theorem lineWord_name {letter : Char → Bool} (hl : PlainLetters letter) {m : Text} (hm : m ∈ lineWords) : VarName letter m := by
  have hc : ∀ c ∈ m, letter c = true := by
    intro c h
    obtain ⟨h1, h2⟩ := (by decide : ∀ m ∈ lineWords, ∀ c ∈ m, c.toNat < 128 ∧ c.isAlpha = true) m hm c h
    rw [hl.1 c h1, h2]
  obtain ⟨h1, h2, h3⟩ := (by decide : ∀ m ∈ lineWords, ¬ c!"else" <+: m ∧ ¬ c!"end" <+: m ∧ m ≠ c!"for") m hm
  refine ⟨?_, fun c h => by simp [varChar, hc c h], h1, h2, h3⟩
  obtain ⟨c, t, rfl⟩ : ∃ c t, m = c :: t := List.exists_cons_of_ne_nil ((by decide : ∀ m ∈ lineWords, m ≠ []) m hm)
  exact ⟨c, t, rfl, hc c (by simp)⟩

theorem rules_before_single {letter : Char → Bool} (hl : PlainLetters letter) (parser : Replacement → Text → Text) {a m g z : Text} {r : Text × Text × Text}
    (hc : NotCommented a) (ha : '@' ∉ a) (hr : r ∈ reduceSigns) (hm : m ∈ lineWords) (hg : ∀ d ∈ g, isBlank d = true) (hz : '@' ∉ z)
    (hs : NoOtherSign (a ++ '@' :: (r.1 ++ (m ++ (g ++ '(' :: z))))) (hno : ∀ f ∈ autoSigns, ¬ f <:+: a ++ '@' :: (r.1 ++ (m ++ (g ++ '(' :: z)))) :
    (((generate defaultDelims).drop 2).take 17).foldl (applyRule letter parser) (a ++ '@' :: (r.1 ++ (m ++ (g ++ '(' :: z)))) =
      a ++ '@' :: (r.1 ++ (m ++ (g ++ '(' :: z))) := by
  have hn := lineWord_name hl hm
  have hgat : '@' ∉ g := fun h => absurd (hg _ h) (by decide)
  have hat : '@' ∉ r.1 ++ (m ++ (g ++ '(' :: z)) := by
    have h1 : '@' ∉ r.1 := (by decide : ∀ r ∈ reduceSigns, '@' ∉ r.1) r hr
    have h2 : '@' ∉ m := (by decide : ∀ m ∈ lineWords, '@' ∉ m) m hm
    simp [h1, h2, hz, hgat]
  obtain ⟨o, z', ho, hz', ez⟩ : ∃ o z', (o = '(' ∨ (isBlank o = true ∧ true = true)) ∧ '@' ∉ z' ∧ g ++ '(' :: z = o :: z' := by
    cases g with
    | nil => exact ⟨'(', z, .inl rfl, hz, rfl⟩
    | cons d g =>
      refine ⟨d, g ++ '(' :: z, .inr ⟨hg d (by simp), rfl⟩, ?_, rfl⟩
      rw [List.mem_cons, not_or] at hgat
      simp [hgat.2, hz]
  refine foldl_idle parser _ (fun rule hrule => ?_)
  obtain ⟨e, hmem, hcomp⟩ := rules_compiled 2 17 rule hrule
  have := table_single e hmem
  simp only [singleIdle, Bool.or_eq_true] at this
  rw [applyRule_compiled hcomp]
  refine replaceRe_none (fun p x q caps hfit _ hx => ?_)
  rcases this with (h' | h') | h'
  · obtain ⟨f, hf, hfn⟩ := List.any_eq_true.mp h'
    have hi := (needsAll_sound hfit hfn).trans hx
    rcases List.mem_append.mp hf with hf | hf
    · exact hs f ((by decide : ∀ f ∈ [c!"${", c!"{{ /*", c!"*/ }}"], f ∈ otherSigns) f hf) hi
    · exact hno f hf hi
  · rw [eq_of_beq h'] at hfit
    obtain ⟨r', hr', m', g', hm', _, rfl⟩ := fit_loop hfit
    obtain ⟨u, v, hx⟩ := hx
    have e : a ++ '@' :: (r.1 ++ (m ++ (g ++ '(' :: z))) = u ++ '@' :: (r'.1 ++ (m' ++ (g' ++ ['('] ++ v))) := by rw [← hx]; simp
    rcases first_at ha e with ⟨_, h⟩ | ⟨w, _, h⟩
    · obtain ⟨c, t, rfl, h1, h2, h3⟩ : ∃ c t, m = c :: t ∧ c ≠ '-' ∧ c ≠ '_' ∧ c ≠ 'f' := by
        simp only [lineWords, List.mem_cons, List.not_mem_nil, or_false] at hm
        rcases hm with rfl | rfl | rfl <;> exact ⟨_, _, rfl, by decide, by decide, by decide⟩
      obtain ⟨t', rfl⟩ : ∃ t, m' = 'f' :: t := by
        cases hm' <;> exact ⟨_, rfl⟩
      have := signs_first (reduce_chars hr') (reduce_chars hr) (c := 'f') (d := c) ⟨by decide, by decide⟩ ⟨h1, h2⟩ h
      exact h3 (List.cons.inj this).1.symm
    · exact hat (by rw [h]; simp)
  · rw [ez] at hx
    exact call_not_bad (sp := true) hl ho hc ha hr hn hz' hx (callBad_sound hl hfit h')

/-! ## The rule -/

theorem single_out {letter : Char → Bool} {parser : Replacement → Text → Text} (hp : Singles letter parser) :
    ∃ out : Text → Caps → Text,
      (∀ x caps, ∃ o, SomeOrder o ∧ out x caps =
        expressionParser letter o true singleRe c!"{{${reduce1} ${command} ${assign}${expr} ${reduce2}}}${action}{{${reduce1} end ${reduce2}}}" x) ∧
      ∀ t, (((generate defaultDelims).drop 19).take 1).foldl (applyRule letter parser) t = Regex.replaceAux letter singleRe out 0 none t := by
  have hlen := congrArg List.length (congrArg (fun l => List.take 1 (List.drop 19 l)) table_eq)
  simp only [← List.map_drop, ← List.map_take, List.length_map, single_entry] at hlen
  obtain ⟨r, hrule⟩ := List.length_eq_one_iff.mp hlen
  obtain ⟨e', hmem, hc⟩ := rules_compiled 19 1 r (by rw [hrule]; exact List.mem_singleton.mpr rfl)
  rw [single_entry] at hmem
  rw [List.mem_singleton.mp hmem] at hc
  refine ⟨output parser r, fun x caps => ?_, fun t => ?_⟩
  · obtain ⟨c1, c2, c3, c4⟩ := hc
    obtain ⟨o, o1, o2, o3, ho⟩ := hp r singleRe x c1 c4
    refine ⟨o, ⟨o1, o2, o3⟩, ?_⟩
    unfold output
    have c3' : r.parser = 1 := c3
    rw [if_neg (by rw [c3']; decide), if_neg, ho, c2, c3']
    · rfl
    · rw [c1]
      exact (by decide : ¬ c!"Single line command - @command (expr) action;" = emailName)
  · rw [hrule, List.foldl_cons, List.foldl_nil, applyRule_compiled hc]
    rfl

theorem single_begins (letter : Char → Bool) (p : Option Char) (ch : Char) (t : Text) (h : ch ≠ '@') : matchAt letter singleRe p (ch :: t) = none :=
  begins_at (by decide +kernel) p ch t h

theorem expand_single (caps : Caps) {code b : Text} (h : Doubled code b) :
    expand (groupOf caps) (Text.replaceAll c!"${expr}" code c!"{{${reduce1} ${command} ${assign}${expr} ${reduce2}}}${action}{{${reduce1} end ${reduce2}}}") =
      wordCode (groupOf caps c!"command" ++ ' ' :: (groupOf caps c!"assign" ++ b)) (groupOf caps c!"reduce1") (groupOf caps c!"reduce2") ++
        (groupOf caps c!"action" ++ wordCode c!"end" (groupOf caps c!"reduce1") (groupOf caps c!"reduce2")) := by
  have e : Text.replaceAll c!"${expr}" code c!"{{${reduce1} ${command} ${assign}${expr} ${reduce2}}}${action}{{${reduce1} end ${reduce2}}}" =
      c!"{{${reduce1} ${command} ${assign}" ++ (code ++ c!" ${reduce2}}}${action}{{${reduce1} end ${reduce2}}}") := by
    simp [Text.replaceAll, Text.replaceAux, Text.hasPrefix, Text.dropPrefix?]
  rw [e]
  unfold expand
  simp [expandAux, Razor.groupName, nameChar, Text.hasPrefix, Text.dropPrefix?, expand_doubled h, wordCode]

/-- The text of a command of a single line, after the delimiter. -/
def singleText (r : Text × Text × Text) (m g w x s k action u : Text) : Text := r.1 ++ (m ++ (g ++ '(' :: (w ++ (x ++ (s ++ ')' :: (k ++ (action ++ (u ++ [';']))))))))

/-- Its code. -/
def singleCode (r : Text × Text × Text) (m x c action : Text) : Text := cmdCode r m x c ++ (action ++ wordCode c!"end" r.2.1 r.2.2)

theorem lineWord_command {m : Text} (h : m ∈ lineWords) : CommandWord m :=
  .word m ((by decide : ∀ m ∈ lineWords, m ∈ [c!"if", c!"with", c!"range", c!"block", c!"define"]) m h)

/-- What is in the code is before it, in its text, in its expression, in its action or after it. -/
theorem infix_single {letter : Char → Bool} {m g w x s v action : Text} {r : Text × Text × Text} {e : Expr} (h : Cmd letter m g w x s [] [] v r e) {f a u : Text} (hne : f ≠ [])
    (h1 : ∀ c ∈ c!" }-:\t", c ∉ f) (h2 : f.head? ≠ some '=') (hi : f <:+: a ++ (singleCode r m x (mu v) action ++ u)) :
    f <:+: a ++ c!"{{" ∨ f <:+: m ∨ f <:+: x ∨ f <:+: mu v ∨ f <:+: action ++ c!"{{" ∨ f <:+: c!"end" ∨ f <:+: u := by
  have e1 : a ++ (singleCode r m x (mu v) action ++ u) = a ++ (cmdCode r m x (mu v) ++ (action ++ (wordCode c!"end" r.2.1 r.2.2 ++ u))) := by simp [singleCode]
  rw [e1] at hi
  rcases infix_cmd h hne h1 h2 hi with hi | hi | hi | hi | hi
  · exact .inl hi
  · exact .inr (.inl hi)
  · exact .inr (.inr (.inl hi))
  · exact .inr (.inr (.inr (.inl hi)))
  · exact .inr (.inr (.inr (.inr (infix_pieces h.signs hne (fun c hc => h1 c ((by decide : ∀ c ∈ c!" }-", c ∈ c!" }-:\t") c hc)) hi))))

theorem brace_front {f a : Text} (hne : f ≠ []) (hq : NotQuoted a) (hbr : f = c!"\"{{" ∨ '{' ∉ f) (hi : f <:+: a ++ c!"{{") : f <:+: a := by
  rcases hbr with rfl | hb
  · exact quoted_front hq hi
  · rcases infix_glue hb hi with hi | hi
    · exact hi
    · exact absurd hi (infix_none hne (fun c hc => by
        rw [List.mem_singleton.mp hc]
        exact hb))

theorem single_slice {letter : Char → Bool} (hl : SignLetters letter) {m g w x s v action : Text} {r : Text × Text × Text} {e : Expr} (h : Cmd letter m g w x s [] [] v r e)
    (hact : ¬ c!".slice" <:+: action) : fixSlice (singleCode r m x (mu v) action) = singleCode r m x (mu v) action := by
  refine replaceAll_free (fun hi => ?_)
  have h1 : c!".slice" <:+: [] ++ (singleCode r m x (mu v) action ++ []) := by
    rw [List.append_nil]
    exact List.IsInfix.trans (⟨['$'], [' '], rfl⟩ : c!".slice" <:+: T "$.slice ") hi
  rcases infix_single h (by decide) (by decide) (by decide) h1 with h1 | h1 | h1 | h1 | h1 | h1 | h1
  · revert h1
    decide
  · exact command_no h.word (c := '.') (by decide) (by decide) (h1.subset (by decide))
  · exact assignment_no hl h.assign (c := '.') (by decide) (h1.subset (by decide))
  · exact code_free foreign_slice h.ins.source h.ins.noSlice v h.value h1
  · rcases infix_glue (by decide) h1 with h1 | h1
    · exact hact h1
    · revert h1
      decide
  · revert h1
    decide
  · revert h1
    decide

theorem rule_single {letter : Char → Bool} (hl : SignLetters letter) {parser : Replacement → Text → Text} (hp : Singles letter parser) {a m g w x s k action u b v : Text}
    {r : Text × Text × Text} {e : Expr} (ha : '@' ∉ a) (hm : m ∈ lineWords) (h : Cmd letter m g w x s [] [] v r e) (hk : ∀ d ∈ k, isBlank d = true) (hact : Action action)
    (hsl : ¬ c!".slice" <:+: action) (hu : ∀ d ∈ u, isBlank d = true) (hb : LineFree (k ++ (action ++ (u ++ ';' :: b)))) (hat : '@' ∉ b) :
    (((generate defaultDelims).drop 19).take 1).foldl (applyRule letter parser) (a ++ '@' :: (singleText r m g w x s k action u ++ b)) =
      a ++ (singleCode r m x (mu v) action ++ b) := by
  obtain ⟨out, h1, h2⟩ := single_out hp
  have hsrc := source_src hl h.ins.source
  have e1 : ∀ b, '@' :: (singleText r m g w x s k action u ++ b) = '@' :: (r.1 ++ (m ++ (g ++ '(' :: (w ++ (x ++ (s ++ ')' :: (k ++ (action ++ (u ++ ';' :: b))))))))) := by
    simp [singleText]
  rw [h2]
  refine replaceAux_matched (single_begins letter) ha (fun p => ?_) (replaceAux_plain (single_begins letter) _ hat) none
  obtain ⟨caps, m1, _⟩ := matchAt_single hl.1 h.signs hm h.gap h.blanks h.assign hsrc.ne hsrc.first hsrc.line h.ins.noAssign hk hact hu hb p
  refine ⟨caps, ?_, ?_⟩
  · rw [e1, m1, ← e1]
    congr 2
    simp only [List.length_cons, List.length_append]
    omega
  · obtain ⟨o, ho, eo⟩ := h1 ('@' :: singleText r m g w x s k action u) caps
    rw [eo]
    refine parsed_as (res := fun c => singleCode r m x c action) hl ho h.ins h.value (by simp) hsrc.ne ?_ (single_slice hl h hsl)
    have hb' : LineFree (k ++ (action ++ (u ++ ';' :: []))) := by
      intro y z hy
      exact hb y (z ++ b) (by
        have e2 : k ++ (action ++ (u ++ ';' :: b)) = (k ++ (action ++ (u ++ ';' :: []))) ++ b := by simp
        rw [e2, hy]
        simp)
    obtain ⟨caps, m1, m2, m3, m4, m5, m6, m7⟩ := matchAt_single hl.1 h.signs hm h.gap h.blanks h.assign hsrc.ne hsrc.first hsrc.line h.ins.noAssign hk hact hu hb' none
    refine ⟨caps, ?_, m2, fun code c hd => ?_⟩
    · have := e1 []
      simp only [List.append_nil] at this
      rw [this]
      exact m1
    · rw [expand_single caps hd, m3, m4, m5, m6, m7]
      rfl

/-! ## The rules after -/

/-- The signs of the last rules are not in the code. -/
theorem single_free {letter : Char → Bool} (hl : SignLetters letter) {f a b m g w x s v action : Text} {r : Text × Text × Text} {e : Expr}
    (hf : f ∈ [c!"@", c!"`", c!"\"<<", c!"\"{{", c!"_=!"]) (h : Cmd letter m g w x s [] [] v r e)
    (hq : NotQuoted a) (hqa : NotQuoted action) (ha : ¬ f <:+: a) (hx : ¬ f <:+: x) (hs : ¬ f <:+: s) (hact : ¬ f <:+: action) (hb : ¬ f <:+: b) :
    ¬ f <:+: a ++ (singleCode r m x (mu v) action ++ b) := by
  have hne : f ≠ [] := (by decide : ∀ f ∈ [c!"@", c!"`", c!"\"<<", c!"\"{{", c!"_=!"], f ≠ []) f hf
  have hsep := (by decide : ∀ f ∈ [c!"@", c!"`", c!"\"<<", c!"\"{{", c!"_=!"], ∀ x ∈ c!" }-:\t", x ∉ f) f hf
  have hbr := (by decide : ∀ f ∈ [c!"@", c!"`", c!"\"<<", c!"\"{{", c!"_=!"], f = c!"\"{{" ∨ '{' ∉ f) f hf
  have hhd := (by decide : ∀ f ∈ [c!"@", c!"`", c!"\"<<", c!"\"{{", c!"_=!"], f.head? ≠ some '=') f hf
  have hend := (by decide : ∀ f ∈ [c!"@", c!"`", c!"\"<<", c!"\"{{", c!"_=!"], ¬ f <:+: c!"end") f hf
  obtain ⟨d, hd, hd1, hd2⟩ := (by decide : ∀ f ∈ [c!"@", c!"`", c!"\"<<", c!"\"{{", c!"_=!"], ∃ d ∈ f, d.isAlpha = false ∧ isBlank d = false) f hf
  intro hi
  rcases infix_single h hne hsep hhd hi with hi | hi | hi | hi | hi | hi | hi
  · exact ha (brace_front hne hq hbr hi)
  · exact command_no h.word hd1 hd2 (hi.subset hd)
  · exact hx hi
  · exact code_free (foreign_later f hf) h.ins.source hs v h.value hi
  · exact hact (brace_front hne hqa hbr hi)
  · exact hend hi
  · exact hb hi

theorem single_marks {letter : Char → Bool} (hl : SignLetters letter) {a b m g w x s v action : Text} {r : Text × Text × Text} {e : Expr} (h : Cmd letter m g w x s [] [] v r e)
    (ha : ¬ Engine.callMark <:+: a) (hact : ¬ Engine.callMark <:+: action) (hb : ¬ Engine.callMark <:+: b) :
    Text.replaceAll Engine.callMark [] (a ++ (singleCode r m x (mu v) action ++ b)) = a ++ (singleCode r m x (rho v) action ++ b) := by
  have e1 : ∀ c, a ++ (singleCode r m x c action ++ b) = a ++ (wordCode (m ++ ' ' :: (x ++ c)) r.2.1 r.2.2 ++ (action ++ (wordCode c!"end" r.2.1 r.2.2 ++ b))) := by
    simp [singleCode, cmdCode]
  rw [e1, e1, word_marks h.signs ha (cmd_marks hl h), word_marks h.signs hact (c' := c!"end") (replaceAll_free (by decide)), replaceAll_free hb]

theorem rules_after_single {letter : Char → Bool} (parser : Replacement → Text → Text) {t : Text} (hat : '@' ∉ t)
    (hno : ∀ f ∈ [c!"`", c!"\"<<", c!"\"{{", c!"_=!"], ¬ f <:+: t) : ((generate defaultDelims).drop 20).foldl (applyRule letter parser) t = t := by
  rw [split_rules 20 84, rules_idle parser 20 84 [['@']] (by decide +kernel)]
  · exact rules_after_slice parser hat hno
  · intro f hf
    rw [List.mem_singleton.mp hf]
    exact fun hi => hat (hi.subset (List.mem_singleton.mpr rfl))

end Verif.Lemmas
