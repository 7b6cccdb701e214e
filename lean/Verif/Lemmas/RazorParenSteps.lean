import Verif.Lemmas.RazorParenSource
import Verif.Lemmas.RazorWordSteps
import Verif.Model.RazorInsert
/-!
# The rules of the expressions between parentheses, one after the other
-/

namespace Verif.Lemmas
open Verif Regex Spec Engine Razor Table Prepare _root_.Verif.Insert

/-! ## The code of an expression in its rule -/

theorem inserted_code {letter : Char → Bool} (hl : SignLetters letter) {o : Orders} (ho : SomeOrder o) {s : Text} {e : Expr} (h : Insertable letter s e) {v : Text}
    (hv : Razor.nodeValue e = some v) : ∃ code, inserted letter o s = some code ∧ Doubled code (mu v) := by
  obtain ⟨_, _, _, m, ts, t, g1, _, _, g4, g5, g6⟩ := source_ready hl ho h.source h.marks
  have g4 := g4 [] nofun
  simp only [List.append_nil, scan_nil, Option.map_some] at g4
  rcases value_both g6 with ⟨_, n2⟩ | ⟨L, hL, v1, v2⟩
  · rw [hv] at n2
    cases n2
  · rw [hv] at v2
    cases v2
    refine ⟨comeBack (flat L), ?_, ?_⟩
    · simp only [inserted, g1, Translate.parse, g4, Option.bind_eq_bind, Option.bind_some, parseTokens_level g5, v1]
    · rw [comeBack_calls hL.marks hL.clear, ← once_mu hL]
      exact (doubled_once hL).1

theorem marks_removed {letter : Char → Bool} (hl : SignLetters letter) {s : Text} {e : Expr} (h : Insertable letter s e) {v : Text}
    (hv : Razor.nodeValue e = some v) : Text.replaceAll Engine.callMark [] (mu v) = rho v ∧ parsePipeline (rho v) = some (meaning e) := by
  obtain ⟨_, _, _, m, ts, t, g1, _, _, g4, g5, g6⟩ := source_ready hl Props.plainOrders_some h.source h.marks
  refine ⟨?_, ?_⟩
  · rcases value_both g6 with ⟨_, n2⟩ | ⟨L, hL, v1, v2⟩
    · rw [hv] at n2
      cases n2
    · rw [hv] at v2
      cases v2
      have := finish_both hL (fun _ => [])
      rw [comeBack_calls hL.marks hL.clear, doubled_expand (doubled_once hL).1, once_mu hL] at this
      exact this
  · obtain ⟨u, hu⟩ := good_of_covered (source_covered h.source).1
    rw [hu.nv] at hv
    cases hv
    obtain ⟨code, c1, c2⟩ := Props.C35_translation_partial (fun _ => []) (source_covered h.source).1
    rw [render_eq _ hu.nv hu.dollar] at c1
    cases c1
    exact c2

theorem expand_doubled {group : Text → Text} {a b : Text} (h : Doubled a b) (x : Text) : expandAux group 0 (a ++ x) = b ++ expandAux group 0 x := by
  induction h with
  | nil => rfl
  | same hc _ ih => simp [expandAux, hc, ih]
  | dollar _ ih => simp [expandAux, Text.hasPrefix, Text.dropPrefix?, ih]

theorem expand_var (caps : Caps) {code b : Text} (h : Doubled code b) :
    expand (groupOf caps) (Text.replaceAll c!"${expr}" code c!"{{${reduce1} ${expr} ${reduce2}}}") = wordCode b (groupOf caps c!"reduce1") (groupOf caps c!"reduce2") := by
  have e : Text.replaceAll c!"${expr}" code c!"{{${reduce1} ${expr} ${reduce2}}}" = c!"{{${reduce1} " ++ (code ++ c!" ${reduce2}}}") := by
    simp [Text.replaceAll, Text.replaceAux, Text.hasPrefix, Text.dropPrefix?]
  rw [e]
  unfold expand
  simp [expandAux, Razor.groupName, nameChar, Text.hasPrefix, Text.dropPrefix?, expand_doubled h, wordCode]

theorem expand_expr (caps : Caps) (ha : groupOf caps c!"assign" = []) {code b : Text} (h : Doubled code b) :
    expand (groupOf caps) (Text.replaceAll c!"${expr}" code c!"{{${reduce1} ${assign}${expr} ${reduce2}}}") =
      wordCode b (groupOf caps c!"reduce1") (groupOf caps c!"reduce2") := by
  have e : Text.replaceAll c!"${expr}" code c!"{{${reduce1} ${assign}${expr} ${reduce2}}}" = c!"{{${reduce1} ${assign}" ++ (code ++ c!" ${reduce2}}}") := by
    simp [Text.replaceAll, Text.replaceAux, Text.hasPrefix, Text.dropPrefix?]
  rw [e]
  unfold expand
  simp [expandAux, Razor.groupName, nameChar, Text.hasPrefix, Text.dropPrefix?, expand_doubled h, wordCode, ha]

/-- Between the braces, and the signs and spaces. -/
theorem infix_none {f x : Text} (hne : f ≠ []) (hx : ∀ c ∈ x, c ∉ f) : ¬ f <:+: x := by
  intro h
  obtain ⟨c, t, rfl⟩ := List.exists_cons_of_ne_nil hne
  exact hx c (h.subset (List.mem_cons_self ..)) (List.mem_cons_self ..)

theorem one_infix {c : Char} {t : Text} (h : c ∈ t) : [c] <:+: t := by
  obtain ⟨a, b, rfl⟩ := List.append_of_mem h
  exact ⟨a, b, by simp⟩

theorem sign_parts {r : Text × Text × Text} (hr : r ∈ reduceSigns) : (∀ c ∈ r.2.1, c = '-') ∧ ∀ c ∈ r.2.2, c = '-' :=
  (by decide : ∀ r ∈ reduceSigns, (∀ c ∈ r.2.1, c = '-') ∧ ∀ c ∈ r.2.2, c = '-') r hr

/-- A text without separators in a code is before the code with its braces, in the expression, or after it. -/
theorem infix_pieces {f a c b : Text} {r : Text × Text × Text} (hr : r ∈ reduceSigns) (hne : f ≠ []) (hf : ∀ x ∈ c!" }-", x ∉ f)
    (h : f <:+: a ++ (wordCode c r.2.1 r.2.2 ++ b)) : f <:+: a ++ c!"{{" ∨ f <:+: c ∨ f <:+: b := by
  obtain ⟨s1, s2⟩ := sign_parts hr
  have e : a ++ (wordCode c r.2.1 r.2.2 ++ b) = (a ++ c!"{{" ++ r.2.1) ++ ' ' :: (c ++ ' ' :: (r.2.2 ++ '}' :: ([] ++ '}' :: b))) := by simp [wordCode]
  rw [e] at h
  rcases infix_glue (hf _ (by decide)) h with h | h
  · refine .inl ?_
    rcases (by decide : ∀ r ∈ reduceSigns, r.2.1 = [] ∨ r.2.1 = ['-']) r hr with e | e
    · rw [e, List.append_nil] at h
      exact h
    · rw [e] at h
      rcases infix_glue (hf _ (by decide)) h with h | h
      · exact h
      · exact absurd (List.infix_nil.mp h) hne
  · rcases infix_glue (hf _ (by decide)) h with h | h
    · exact .inr (.inl h)
    · rcases infix_glue (hf _ (by decide)) h with h | h
      · exact absurd h (infix_none hne fun x hx => by rw [s2 x hx]; exact hf _ (by decide))
      · rcases infix_glue (hf _ (by decide)) h with h | h
        · exact absurd (List.infix_nil.mp h) hne
        · exact .inr (.inr h)

theorem foreign_slice : Foreign c!".slice" c!"slice" := by
  constructor <;> decide +kernel

theorem foreign_later : ∀ f ∈ [c!"@", c!"`", c!"\"<<", c!"\"{{", c!"_=!"], Foreign f f := by
  intro f hf
  simp only [List.mem_cons, List.not_mem_nil, or_false] at hf
  rcases hf with rfl | rfl | rfl | rfl | rfl <;> (constructor <;> decide +kernel)

theorem code_slice {letter : Char → Bool} {s : Text} {e : Expr} (h : Insertable letter s e) {v : Text} (hv : Razor.nodeValue e = some v) {r : Text × Text × Text}
    (hr : r ∈ reduceSigns) : fixSlice (wordCode (mu v) r.2.1 r.2.2) = wordCode (mu v) r.2.1 r.2.2 := by
  refine replaceAll_free (fun hi => ?_)
  have h1 : c!".slice" <:+: [] ++ (wordCode (mu v) r.2.1 r.2.2 ++ []) := by
    rw [List.append_nil]
    exact List.IsInfix.trans (⟨['$'], [' '], rfl⟩ : c!".slice" <:+: T "$.slice ") hi
  rcases infix_pieces hr (by decide) (by decide) h1 with h1 | h1 | h1
  · revert h1
    decide
  · exact code_free foreign_slice h.source h.noSlice v hv h1
  · revert h1
    decide

/-- The function of the rule puts the code of the expression in the replacement. -/
theorem parsed_as {letter : Char → Bool} (hl : SignLetters letter) {o : Orders} (ho : SomeOrder o) {re : Re} {replace m s : Text} {e : Expr} {v : Text}
    {res : Text → Text} (h : Insertable letter s e) (hv : Razor.nodeValue e = some v) (hne : m ≠ []) (hs : s ≠ [])
    (hm : ∃ caps, matchAt letter re none m = some (m.length, caps) ∧ groupOf caps c!"expr" = s ∧
      ∀ code b, Doubled code b → expand (groupOf caps) (Text.replaceAll c!"${expr}" code replace) = res b) (hf : fixSlice (res (mu v)) = res (mu v)) :
    expressionParser letter o true re replace m = res (mu v) := by
  obtain ⟨caps, h1, h2, h3⟩ := hm
  obtain ⟨code, c1, c2⟩ := inserted_code hl ho h hv
  have hg : groups letter re m = caps := by
    unfold groups
    rw [h1]
  have hsub : substitute letter re (Text.replaceAll c!"${expr}" code replace) m = res (mu v) := by
    obtain ⟨c, t, rfl⟩ := List.exists_cons_of_ne_nil hne
    unfold substitute replaceRe
    rw [Regex.replaceAux, h1]
    simp only [List.length_cons]
    have := replaceAux_skipped letter re (fun _ caps => expand (groupOf caps) (Text.replaceAll c!"${expr}" code replace)) t [] (some c)
    rw [List.append_nil] at this
    rw [this, Regex.replaceAux, List.append_nil]
    exact h3 _ _ c2
  unfold expressionParser
  simp only [hg, h2, if_neg hs, c1, hsub]
  exact hf

/-- The function of the rule gives the code of the expression. -/
theorem parsed {letter : Char → Bool} (hl : SignLetters letter) {o : Orders} (ho : SomeOrder o) {re : Re} {replace m s : Text} {e : Expr} {v : Text}
    {r : Text × Text × Text} (h : Insertable letter s e) (hv : Razor.nodeValue e = some v) (hr : r ∈ reduceSigns) (hne : m ≠ []) (hs : s ≠ [])
    (hm : ∃ caps, matchAt letter re none m = some (m.length, caps) ∧ groupOf caps c!"expr" = s ∧
      ∀ code b, Doubled code b → expand (groupOf caps) (Text.replaceAll c!"${expr}" code replace) = wordCode b r.2.1 r.2.2) :
    expressionParser letter o true re replace m = wordCode (mu v) r.2.1 r.2.2 :=
  parsed_as (res := fun b => wordCode b r.2.1 r.2.2) hl ho h hv hne hs hm (code_slice h hv hr)

theorem rule_out {letter : Char → Bool} {parser : Replacement → Text → Text} (hp : Parses letter parser) {i : Nat} {name replace : Text} {e : Re}
    (he : (table.drop i).take 1 = [(name, replace, 1, e)]) (hn : name ∈ [c!"Expression @(var)", c!"Expression @(expr)", c!"Command(expr)"]) :
    ∃ out : Text → Caps → Text, (∀ x caps, ∃ o, SomeOrder o ∧ out x caps = expressionParser letter o true e replace x) ∧
      ∀ t, (((generate defaultDelims).drop i).take 1).foldl (applyRule letter parser) t = Regex.replaceAux letter e out 0 none t := by
  have hlen := congrArg List.length (congrArg (fun l => List.take 1 (List.drop i l)) table_eq)
  simp only [← List.map_drop, ← List.map_take, List.length_map, he] at hlen
  obtain ⟨r, hrule⟩ := List.length_eq_one_iff.mp hlen
  obtain ⟨e', hmem, hc⟩ := rules_compiled i 1 r (by rw [hrule]; exact List.mem_singleton.mpr rfl)
  rw [he] at hmem
  rw [List.mem_singleton.mp hmem] at hc
  refine ⟨output parser r, fun x caps => ?_, fun t => ?_⟩
  · obtain ⟨c1, c2, c3, c4⟩ := hc
    obtain ⟨o, o1, o2, o3, ho⟩ := hp r e x (by rw [c1]; exact hn) c4
    refine ⟨o, ⟨o1, o2, o3⟩, ?_⟩
    unfold output
    have c3' : r.parser = 1 := c3
    rw [if_neg (by rw [c3']; decide), if_neg, ho, c2, c3']
    · rfl
    · rw [c1]
      simp only [List.mem_cons, List.not_mem_nil, or_false] at hn
      rcases hn with rfl | rfl | rfl
      · exact (by decide : ¬ c!"Expression @(var)" = emailName)
      · exact (by decide : ¬ c!"Expression @(expr)" = emailName)
      · exact (by decide : ¬ c!"Command(expr)" = emailName)
  · rw [hrule, List.foldl_cons, List.foldl_nil, applyRule_compiled hc]
    rfl

theorem rule_parsed {letter : Char → Bool} {parser : Replacement → Text → Text} (hp : Parses letter parser) {i : Nat} {name replace : Text} {e : Re}
    (he : (table.drop i).take 1 = [(name, replace, 1, e)]) (hn : name ∈ [c!"Expression @(var)", c!"Expression @(expr)", c!"Command(expr)"]) {t t' : Text}
    (h : ∀ out : Text → Caps → Text, (∀ x caps, ∃ o, SomeOrder o ∧ out x caps = expressionParser letter o true e replace x) →
      ∀ p, Regex.replaceAux letter e out 0 p t = t') :
    (((generate defaultDelims).drop i).take 1).foldl (applyRule letter parser) t = t' := by
  obtain ⟨out, h1, h2⟩ := rule_out hp he hn
  rw [h2]
  exact h out h1 none

theorem replaceAux_matched {letter : Char → Bool} {e : Re} (he : ∀ p ch t, ch ≠ '@' → matchAt letter e p (ch :: t) = none) {out : Text → Caps → Text}
    {a x q q' code : Text} (ha : '@' ∉ a) (hm : ∀ p, ∃ caps, matchAt letter e p ('@' :: (x ++ q)) = some (x.length + 1, caps) ∧
      out ('@' :: x) caps = code) (hq : ∀ p, Regex.replaceAux letter e out 0 p q = q') (p : Option Char) :
    Regex.replaceAux letter e out 0 p (a ++ '@' :: (x ++ q)) = a ++ (code ++ q') := by
  obtain ⟨caps, h1, h2⟩ := hm (lastOr p a)
  rw [replaceAux_before he _ _ ha, Regex.replaceAux, h1]
  simp only
  rw [replaceAux_skipped, hq, List.take_succ_cons, List.take_left, h2]

/-! ## The texts after each rule -/

/-- The text of an expression between parentheses, after the delimiter, with what is dropped after it. -/
def parenText (r : Text × Text × Text) (w s d : Text) : Text := r.1 ++ '(' :: (w ++ (s ++ ')' :: d))

structure Part (letter : Char → Bool) (a w s d t v : Text) (r : Text × Text × Text) (e : Expr) : Prop where
  before : '@' ∉ a
  comment : NotCommented a
  quote : NotQuoted a
  signs : r ∈ reduceSigns
  noUnder : '_' ∉ r.1
  blanks : ∀ d ∈ w, isBlank d = true
  ins : Insertable letter s e
  value : Razor.nodeValue e = some v
  dropped : Dropped d
  remains : ∀ u, PrefixLike t u → Remains (d ++ u) u
  line : Alone (d ++ t)
  unmarked : ¬ Engine.callMark <:+: a

/-- A text that is already a code, and what it becomes. -/
structure Coded (c c' : Text) : Prop where
  free : '@' ∉ c
  ends : ∃ c₀, c = c₀ ++ c!"}}"
  marks : ∀ u, Text.replaceAll Engine.callMark [] (c ++ u) = c' ++ Text.replaceAll Engine.callMark [] u

/-- A source, the text after the rule of names, after the rule of expressions, and the code. -/
inductive ParenSteps (letter : Char → Bool) : Text → Text → Text → Text → Prop
  | plain {a} : '@' ∉ a → ¬ Engine.callMark <:+: a → ParenSteps letter a a a a
  | code {c c' t t1 t2 t3} : Coded c c' → ParenSteps letter t t1 t2 t3 → ParenSteps letter (c ++ t) (c ++ t1) (c ++ t2) (c' ++ t3)
  | name {a w s d t t1 t2 t3 v r e} : Part letter a w s d t v r e → SelName letter s → ParenSteps letter t t1 t2 t3 →
      ParenSteps letter (a ++ '@' :: (parenText r w s d ++ t)) (a ++ (wordCode (mu v) r.2.1 r.2.2 ++ t1)) (a ++ (wordCode (mu v) r.2.1 r.2.2 ++ t2))
        (a ++ (wordCode (rho v) r.2.1 r.2.2 ++ t3))
  | other {a w s d t t1 t2 t3 v r e} : Part letter a w s d t v r e → ¬ SelName letter s → ParenSteps letter t t1 t2 t3 →
      ParenSteps letter (a ++ '@' :: (parenText r w s d ++ t)) (a ++ '@' :: (parenText r w s d ++ t1)) (a ++ (wordCode (mu v) r.2.1 r.2.2 ++ t2))
        (a ++ (wordCode (rho v) r.2.1 r.2.2 ++ t3))

theorem part_result {letter : Char → Bool} (hl : SignLetters letter) {a w s d t v : Text} {r : Text × Text × Text} {e : Expr} {t3 : Text} (hp : Part letter a w s d t v r e)
    (ih : Expressions letter (fun e c => parsePipeline c = some (meaning e)) t t3) :
    Expressions letter (fun e c => parsePipeline c = some (meaning e)) (a ++ '@' :: (parenText r w s d ++ t)) (a ++ (wordCode (rho v) r.2.1 r.2.2 ++ t3)) := by
  have eq : a ++ '@' :: (parenText r w s d ++ t) = a ++ '@' :: (r.1 ++ '(' :: (w ++ (s ++ ')' :: (d ++ t)))) := by simp [parenText]
  rw [eq]
  exact .expr a w s (rho v) (d ++ t) t t3 e r hp.before hp.comment hp.quote hp.signs hp.noUnder hp.blanks hp.ins (marks_removed hl hp.ins hp.value).2 hp.line
    (hp.remains t fun _ _ h => h) ih

theorem paren_steps {letter : Char → Bool} (hl : SignLetters letter) {code : Expr → Text → Prop} {t out : Text} (h : Expressions letter code t out)
    (hm : ¬ Engine.callMark <:+: t) :
    ∃ t1 t2 t3, ParenSteps letter t t1 t2 t3 ∧ Expressions letter (fun e c => parsePipeline c = some (meaning e)) t t3 := by
  induction h with
  | plain a ha => exact ⟨a, a, a, .plain ha hm, .plain a ha⟩
  | expr a w s c rest rest' out e r h1 h2 h3 h4 h5 h6 h7 _ h9 h10 _ ih =>
    obtain ⟨d, d1, rfl, d3⟩ := remains_dropped h10
    obtain ⟨v, hv⟩ := good_of_covered (source_covered h7.source).1
    have e1 : a ++ '@' :: (r.1 ++ '(' :: (w ++ (s ++ ')' :: (d ++ rest')))) = a ++ '@' :: (parenText r w s d ++ rest') := by simp [parenText]
    rw [e1] at hm ⊢
    obtain ⟨t1, t2, t3, ih, ihr⟩ := ih (fun hi => hm (hi.trans ⟨a ++ '@' :: parenText r w s d, [], by simp⟩))
    have hp : Part letter a w s d rest' v r e :=
      ⟨h1, h2, h3, h4, h5, h6, h7, hv.nv, d1, d3, h9, fun hi => hm (hi.trans (List.prefix_append _ _).isInfix)⟩
    by_cases hs : SelName letter s
    · exact ⟨_, _, _, .name hp hs ih, part_result hl hp ihr⟩
    · exact ⟨_, _, _, .other hp hs ih, part_result hl hp ihr⟩

theorem paren_like {letter : Char → Bool} {t t1 t2 t3 : Text} (h : ParenSteps letter t t1 t2 t3) : PrefixLike t t1 := by
  induction h with
  | plain _ _ => exact fun _ _ h => h
  | code _ _ ih => exact prefixLike_front _ ih
  | name hp _ _ _ => exact prefixLike_code _ _ _
  | @other a w s d t t1 t2 t3 v r e hp _ _ ih =>
    have := prefixLike_front (a ++ '@' :: parenText r w s d) ih
    simpa using this

theorem drop_plain {d : Text} (h : Dropped d) : '@' ∉ d ∧ ')' ∉ d ∧ '\n' ∉ d ∧ '[' ∉ d := by
  rcases h with rfl | ⟨v, hv, rfl⟩
  · simp
  · have : ∀ c, isBlank c = true → c = ' ' ∨ c = '\t' := by simp [isBlank]
    refine ⟨?_, ?_, ?_, ?_⟩ <;> (intro hm; rcases List.mem_append.mp hm with hm | hm) <;>
      first
        | (rcases this _ (hv _ hm) with h | h <;> exact absurd h (by decide))
        | (exact absurd hm (by decide))

theorem paren_signs {r : Text × Text × Text} (hr : r ∈ reduceSigns) : ∀ c ∈ r.1, c = '-' ∨ c = '_' :=
  (by decide : ∀ r ∈ reduceSigns, ∀ c ∈ r.1, c = '-' ∨ c = '_') r hr

theorem part_chars {letter : Char → Bool} (hl : SignLetters letter) {a w s d t v : Text} {r : Text × Text × Text} {e : Expr} (h : Part letter a w s d t v r e) :
    '@' ∉ parenText r w s d ∧ '\n' ∉ parenText r w s d := by
  have hs := source_src hl h.ins.source
  have hd := drop_plain h.dropped
  have hr := paren_signs h.signs
  have hb : ∀ c, isBlank c = true → c = ' ' ∨ c = '\t' := by simp [isBlank]
  unfold parenText
  simp only [List.mem_append, List.mem_cons]
  refine ⟨?_, ?_⟩
  · rintro (hm | hm | hm | hm | hm | hm)
    · rcases hr _ hm with h | h <;> exact absurd h (by decide)
    · exact absurd hm (by decide)
    · rcases hb _ (h.blanks _ hm) with h | h <;> exact absurd h (by decide)
    · exact hs.at_ hm
    · exact absurd hm (by decide)
    · exact hd.1 hm
  · rintro (hm | hm | hm | hm | hm | hm)
    · rcases hr _ hm with h | h <;> exact absurd h (by decide)
    · exact absurd hm (by decide)
    · rcases hb _ (h.blanks _ hm) with h | h <;> exact absurd h (by decide)
    · exact hs.line hm
    · exact absurd hm (by decide)
    · exact hd.2.2.1 hm

theorem remains_end {d : Text} (h : Dropped d) : Remains d [] := by
  rcases h with rfl | ⟨v, hv, rfl⟩
  · exact .inr ⟨rfl, fun w e _ he => by simp at he⟩
  · exact .inl ⟨v, hv, rfl⟩

/-! ## The two rules -/

theorem var_begins (letter : Char → Bool) (p : Option Char) (ch : Char) (t : Text) (h : ch ≠ '@') : matchAt letter varRe p (ch :: t) = none :=
  begins_at (by decide +kernel) p ch t h

theorem expr_begins (letter : Char → Bool) (p : Option Char) (ch : Char) (t : Text) (h : ch ≠ '@') : matchAt letter exprRe p (ch :: t) = none :=
  begins_at (by decide +kernel) p ch t h

theorem rule_var {letter : Char → Bool} (hl : SignLetters letter) {parser : Replacement → Text → Text} (hp : Parses letter parser) {t t1 t2 t3 : Text}
    (h : ParenSteps letter t t1 t2 t3) : (((generate defaultDelims).drop 142).take 1).foldl (applyRule letter parser) t = t1 := by
  refine rule_parsed hp var_entry (by decide) (fun out hout => ?_)
  induction h with
  | plain ha _ => exact replaceAux_plain (var_begins letter) _ ha
  | code hc _ ih =>
    intro p
    rw [replaceAux_before (var_begins letter) _ _ hc.free, ih]
  | @name a w s d t t1 t2 t3 v r e hq hs h ih =>
    refine replaceAux_matched (var_begins letter) hq.before (fun p => ?_) ih
    have e1 : ∀ u, '@' :: (parenText r w s d ++ u) = '@' :: (r.1 ++ '(' :: (w ++ (s ++ ')' :: (d ++ u)))) := by simp [parenText]
    obtain ⟨caps, m1, m2, m3, m4⟩ := matchAt_var hl.1 hq.signs hq.blanks hs (hq.remains t fun _ _ h => h) p
    refine ⟨caps, ?_, ?_⟩
    · have hlen : ('@' :: (r.1 ++ '(' :: (w ++ (s ++ ')' :: (d ++ t))))).length - t.length = (parenText r w s d).length + 1 := by
        simp only [parenText, List.length_cons, List.length_append]
        omega
      rw [e1, m1, hlen]
    · obtain ⟨o, ho, eo⟩ := hout ('@' :: parenText r w s d) caps
      rw [eo]
      refine parsed hl ho hq.ins hq.value hq.signs (by simp) (source_src hl hq.ins.source).ne ?_
      obtain ⟨caps, m1, m2, m3, m4⟩ := matchAt_var hl.1 hq.signs hq.blanks hs (remains_end hq.dropped) none
      refine ⟨caps, m1, m2, fun code b hd => ?_⟩
      rw [expand_var caps hd, m3, m4]
  | @other a w s d t t1 t2 t3 v r e hq hs h ih =>
    refine replaceAux_over (var_begins letter) hq.before (part_chars hl hq).1 (fun p => ?_) ih
    have e1 : ∀ u, '@' :: (parenText r w s d ++ u) = '@' :: (r.1 ++ '(' :: (w ++ (s ++ ')' :: (d ++ u)))) := by simp [parenText]
    rw [e1]
    have hsrc := source_src hl hq.ins.source
    exact matchAt_not_var hl.1 hq.signs hq.blanks (src_sel hl hsrc hs) hsrc.first p

/-! ## Parentheses and lines -/

theorem lineFree_suffix {a b : Text} (ha : '\n' ∉ a) (h : LineFree (a ++ b)) : LineFree b := by
  intro u v hu
  have := h (a ++ u) v (by rw [hu]; simp)
  rcases List.mem_append.mp this with h | h
  · exact absurd h ha
  · exact h

theorem lineFree_lines {a b c : Text} (ha : '\n' ∈ a) (h : LineFree (a ++ b)) : LineFree (a ++ c) := by
  intro u v hu
  rcases List.append_eq_append_iff.mp hu with ⟨x, h1, h2⟩ | ⟨x, h1, h2⟩
  · rw [h1]
    exact List.mem_append_left _ ha
  · cases x with
    | nil =>
      rw [List.append_nil] at h1
      rwa [← h1]
    | cons d x =>
      simp only [List.cons_append, List.cons.injEq] at h2
      exact h u (x ++ b) (by rw [h1, ← h2.1]; simp)

theorem lineFree_plain {d : Text} (hd : ')' ∉ d) {t : Text} (h : LineFree t) : LineFree (d ++ t) := by
  intro u v hu
  rcases List.append_eq_append_iff.mp hu with ⟨x, h1, h2⟩ | ⟨x, h1, h2⟩
  · rw [h1]
    exact List.mem_append_right _ (h x v h2)
  · cases x with
    | nil =>
      rw [List.append_nil] at h1
      have := h [] v h2.symm
      cases this
    | cons e x =>
      simp only [List.cons_append, List.cons.injEq] at h2
      exact absurd (by rw [h1, h2.1]; simp) hd

theorem name_code {letter : Char → Bool} (hl : SignLetters letter) {s : Text} (hs : SelName letter s) {e : Expr} (h : Insertable letter s e) {v : Text}
    (hv : Razor.nodeValue e = some v) : '[' ∉ mu v := by
  have hf : Foreign c!"[" c!"[" := by constructor <;> decide +kernel
  refine fun hi => code_free hf h.source (fun hi => ?_) v hv (one_infix hi)
  have hm : '[' ∈ s := hi.subset (by decide)
  have hb : letter '[' = false := hl.1.1 _ (by decide)
  obtain ⟨c, t, rfl, h1, h2⟩ := hs
  rcases List.mem_cons.mp hm with rfl | hm
  · rcases h1 with h1 | h1
    · rw [hb] at h1
      cases h1
    · exact absurd h1 (by decide)
  · rcases h2 _ hm with h2 | h2
    · unfold varChar at h2
      rw [hb] at h2
      exact absurd h2 (by decide)
    · exact absurd h2 (by decide)

theorem code_at {letter : Char → Bool} (hl : SignLetters letter) {a w s d t v : Text} {r : Text × Text × Text} {e : Expr} (h : Part letter a w s d t v r e) :
    '@' ∉ wordCode (mu v) r.2.1 r.2.2 := by
  intro hi
  have h1 : c!"@" <:+: [] ++ (wordCode (mu v) r.2.1 r.2.2 ++ []) := by
    rw [List.append_nil]
    exact one_infix hi
  rcases infix_pieces h.signs (by decide) (by decide) h1 with h1 | h1 | h1
  · exact absurd (h1.subset (List.mem_singleton.mpr rfl)) (by decide)
  · exact code_free (foreign_later _ (by decide)) h.ins.source (fun hi => (source_src hl h.ins.source).at_ (hi.subset (by decide))) v h.value h1
  · exact absurd (h1.subset (List.mem_singleton.mpr rfl)) (by decide)

end Verif.Lemmas
