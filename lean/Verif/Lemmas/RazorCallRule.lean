import Verif.Lemmas.RazorCallAuto
import Verif.Lemmas.RazorSliceSteps
/-!
# The rule of the calls of functions in razor
-/

namespace Verif.Lemmas
open Verif Regex Spec Engine Razor Table Prepare _root_.Verif.Insert

def funcCls : Cls := ⟨false, [.letter, .digit, .chr '_']⟩

/-- The rule `@name(…)`. -/
def callRe : Re :=
  .seq (.seq (.seq (lit '@') reduceRe) (.group c!"expr" (.seq (.seq (.seq (.seq (.seq (.seq (.cls funcCls) (.star true (.cls funcCls))) (lit '(')) blankRe) (.star true (.cls lineCls)))
    blankRe) (lit ')')))) endRe

theorem call_entry : (table.drop 80).take 1 = [(c!"Function call - @func(args...)", c!"{{${reduce1} ${expr} ${reduce2}}}", 1, callRe)] := by
  rfl

theorem fit_shut {β : Type} {letter : Char → Bool} {k : Cont β} {v : Text} {p : Option Char} {c : Caps} {r : β}
    (h : (run letter blankRe p v c fun p s c => run letter (lit ')') p s c k) = some r) : ∃ y q, v = y ++ ')' :: q ∧ ∀ d ∈ y, isBlank d = true := by
  obtain ⟨y, q, c', rfl, hf, hq⟩ := run_sound letter _ h
  obtain ⟨y2, q2, c2, rfl, hf2, _⟩ := run_sound letter _ hq
  obtain ⟨rfl, _⟩ := fit_lit hf2
  refine ⟨y, q2, rfl, fun d hd => ?_⟩
  have := fit_star_all hf _ hd
  rwa [has_blank] at this

theorem blanks_first : ∀ z : Text, ∃ w z', z = w ++ z' ∧ (∀ d ∈ w, isBlank d = true) ∧ ∀ d, z'.head? = some d → isBlank d = false
  | [] => ⟨[], [], rfl, nofun, nofun⟩
  | c :: z => by
    by_cases hc : isBlank c = true
    · obtain ⟨w, z', rfl, h1, h2⟩ := blanks_first z
      refine ⟨c :: w, z', rfl, fun d hd => ?_, h2⟩
      rcases List.mem_cons.mp hd with rfl | hd
      · exact hc
      · exact h1 d hd
    · exact ⟨[], c :: z, rfl, nofun, fun d hd => by cases hd; simpa using hc⟩

theorem matchAt_call {letter : Char → Bool} (hl : PlainLetters letter) {r : Text × Text × Text} (hr : r ∈ reduceSigns) {name z b b' : Text} (hn : VarName letter name)
    (hline : '\n' ∉ z) (hb : LineFree b) (hrem : Remains b b') (p : Option Char) :
    ∃ caps, matchAt letter callRe p ('@' :: (r.1 ++ (name ++ '(' :: (z ++ ')' :: b)))) = some (('@' :: (r.1 ++ (name ++ '(' :: (z ++ ')' :: b)))).length - b'.length, caps) ∧
      groupOf caps c!"expr" = name ++ '(' :: (z ++ [')']) ∧ groupOf caps c!"reduce1" = r.2.1 ∧ groupOf caps c!"reduce2" = r.2.2 := by
  obtain ⟨d, h1, h2, hrun⟩ := run_reduce hr
  obtain ⟨c₀, t, rfl, hc⟩ := hn.first
  obtain ⟨w, z', rfl, hw, hz⟩ := blanks_first z
  refine ⟨(c!"expr", c₀ :: t ++ '(' :: (w ++ z' ++ [')'])) :: d, ?_, ?_, ?_, ?_⟩
  · unfold matchAt callRe
    simp only [run_seq_eq, run_lit_cons]
    have hf := first_not_sign hl hc
    refine hrun letter _ _ _ _ _ hf.1 hf.2.1 (fun p' => ?_)
    rw [run_group_eq]
    simp only [run_seq_eq, List.append_eq]
    have hid : ∀ ch ∈ c₀ :: t, funcCls.has letter ch = true := by
      intro ch h
      have := hn.chars ch h
      simp only [funcCls, Cls.has, Item.has, List.any_cons, List.any_nil, bne_iff_ne, ne_eq, Bool.not_eq_false, Bool.or_eq_true, beq_iff_eq]
      simp only [varChar, Bool.or_eq_true, beq_iff_eq] at this
      rcases this with (h | h) | h <;> simp [h]
    rw [run_cls_cons (hid _ (by simp))]
    refine run_star_cls (fun ch h => hid ch (by simp [h])) ?_ ?_
    · rintro _ ⟨⟩
      have : letter '(' = false := by
        rw [hl.1 _ (by decide)]
        decide
      simp [funcCls, Cls.has, Item.has, this]
    · rw [run_lit_cons, List.append_assoc]
      refine run_blanks hw (fun d hd => ?_) (fun p => ?_)
      · cases z' with
        | nil =>
          cases hd
          rfl
        | cons e z' => exact hz d hd
      · refine run_star_back (fun ch h => ?_) ?_ ?_
        · rw [has_line]
          rintro rfl
          exact hline (by simp [h])
        · intro v1 v2 hv hv1 hl p
          refine Option.eq_none_iff_forall_ne_some.mpr (fun res hres => ?_)
          obtain ⟨y, q, rfl, hy⟩ := fit_shut hres
          obtain ⟨e, v1, rfl⟩ := List.exists_cons_of_ne_nil hv1
          simp only [List.cons_append, List.cons.injEq] at hv
          have hm := hb (v1 ++ y) q (by rw [hv.2, List.append_assoc])
          rcases List.mem_append.mp hm with hm | hm
          · exact (has_line letter '\n').mp (hl _ (List.mem_cons_of_mem _ hm)) rfl
          · exact absurd (hy _ hm) (by decide)
        · refine run_blanks (w := []) (by simp) (by rintro _ ⟨⟩; rfl) (fun p => ?_)
          rw [run_lit_cons]
          refine run_endRe hrem (fun _ => ?_)
          have e1 := take_here (c₀ :: t ++ '(' :: (w ++ z' ++ [')'])) b
          simp only [List.cons_append, List.append_assoc, List.nil_append] at e1 ⊢
          rw [e1]
  · simp [groupOf]
  · rw [← h1]
    simp [groupOf]
  · rw [← h2]
    simp [groupOf]

theorem call_out {letter : Char → Bool} {parser : Replacement → Text → Text} (hp : Calls letter parser) :
    ∃ out : Text → Caps → Text,
      (∀ x caps, ∃ o, SomeOrder o ∧ out x caps = expressionParser letter o true callRe c!"{{${reduce1} ${expr} ${reduce2}}}" x) ∧
      ∀ t, (((generate defaultDelims).drop 80).take 1).foldl (applyRule letter parser) t = Regex.replaceAux letter callRe out 0 none t := by
  have hlen := congrArg List.length (congrArg (fun l => List.take 1 (List.drop 80 l)) table_eq)
  simp only [← List.map_drop, ← List.map_take, List.length_map, call_entry] at hlen
  obtain ⟨r, hrule⟩ := List.length_eq_one_iff.mp hlen
  obtain ⟨e', hmem, hc⟩ := rules_compiled 80 1 r (by rw [hrule]; exact List.mem_singleton.mpr rfl)
  rw [call_entry] at hmem
  rw [List.mem_singleton.mp hmem] at hc
  refine ⟨output parser r, fun x caps => ?_, fun t => ?_⟩
  · obtain ⟨c1, c2, c3, c4⟩ := hc
    obtain ⟨o, o1, o2, o3, ho⟩ := hp r callRe x c1 c4
    refine ⟨o, ⟨o1, o2, o3⟩, ?_⟩
    unfold output
    have c3' : r.parser = 1 := c3
    rw [if_neg (by rw [c3']; decide), if_neg, ho, c2, c3']
    · rfl
    · rw [c1]
      exact (by decide : ¬ c!"Function call - @func(args...)" = emailName)
  · rw [hrule, List.foldl_cons, List.foldl_nil, applyRule_compiled hc]
    rfl

theorem call_begins (letter : Char → Bool) (p : Option Char) (ch : Char) (t : Text) (h : ch ≠ '@') : matchAt letter callRe p (ch :: t) = none :=
  begins_at (by decide +kernel) p ch t h

/-- The text of a call, after the delimiter, with what is dropped after it. -/
def callText (r : Text × Text × Text) (name z d : Text) : Text := r.1 ++ (name ++ '(' :: (z ++ ')' :: d))

theorem rule_call {letter : Char → Bool} (hl : SignLetters letter) {parser : Replacement → Text → Text} (hp : Calls letter parser) {a : Text} {r : Text × Text × Text}
    {name z b b' : Text} {e : Expr} {v : Text} (ha : '@' ∉ a) (hr : r ∈ reduceSigns) (hn : VarName letter name) (h : Insertable letter (name ++ '(' :: (z ++ [')'])) e)
    (hv : Razor.nodeValue e = some v) (hb : LineFree b) (hat : '@' ∉ b) (hrem : Remains b b') :
    (((generate defaultDelims).drop 80).take 1).foldl (applyRule letter parser) (a ++ '@' :: (r.1 ++ (name ++ '(' :: (z ++ ')' :: b)))) =
      a ++ (wordCode (mu v) r.2.1 r.2.2 ++ b') := by
  obtain ⟨d, hd, rfl, _⟩ := remains_dropped hrem
  obtain ⟨out, h1, h2⟩ := call_out hp
  have hline : '\n' ∉ z := fun hm => (source_src hl h.source).line (by simp [hm])
  have e1 : a ++ '@' :: (r.1 ++ (name ++ '(' :: (z ++ ')' :: (d ++ b')))) = a ++ '@' :: (callText r name z d ++ b') := by simp [callText]
  rw [e1, h2]
  refine replaceAux_matched (call_begins letter) ha (fun p => ?_) (replaceAux_plain (call_begins letter) _ fun hm => hat (List.mem_append_right _ hm)) none
  obtain ⟨caps, m1, _⟩ := matchAt_call hl.1 hr hn hline hb hrem p
  refine ⟨caps, ?_, ?_⟩
  · have e2 : '@' :: (callText r name z d ++ b') = '@' :: (r.1 ++ (name ++ '(' :: (z ++ ')' :: (d ++ b')))) := by simp [callText]
    rw [e2, m1]
    congr 2
    simp only [callText, List.length_cons, List.length_append]
    omega
  · obtain ⟨o, ho, eo⟩ := h1 ('@' :: callText r name z d) caps
    rw [eo]
    have hbd : LineFree d := by
      intro u w hu
      exact absurd (by rw [hu]; simp) (drop_plain hd).2.1
    refine parsed hl ho h hv hr (by simp) (source_src hl h.source).ne ?_
    obtain ⟨caps, m1, m2, m3, m4⟩ := matchAt_call hl.1 hr hn hline hbd (remains_end hd) none
    refine ⟨caps, m1, m2, fun code b hd => ?_⟩
    rw [expand_var caps hd, m3, m4]

/-- The signs of the last rules are not in the code. -/
theorem call_free {letter : Char → Bool} {f a s b v : Text} {e : Expr} {r : Text × Text × Text}
    (hf : f ∈ [c!"@", c!"`", c!"\"<<", c!"\"{{", c!"_=!"]) (hr : r ∈ reduceSigns) (h : Insertable letter s e) (hv : Razor.nodeValue e = some v)
    (hq : NotQuoted a) (ha : ¬ f <:+: a) (hs : ¬ f <:+: s) (hb : ¬ f <:+: b) : ¬ f <:+: a ++ (wordCode (mu v) r.2.1 r.2.2 ++ b) := by
  have hne : f ≠ [] := (by decide : ∀ f ∈ [c!"@", c!"`", c!"\"<<", c!"\"{{", c!"_=!"], f ≠ []) f hf
  have hsep := (by decide : ∀ f ∈ [c!"@", c!"`", c!"\"<<", c!"\"{{", c!"_=!"], ∀ x ∈ c!" }-", x ∉ f) f hf
  have hbr := (by decide : ∀ f ∈ [c!"@", c!"`", c!"\"<<", c!"\"{{", c!"_=!"], f = c!"\"{{" ∨ '{' ∉ f) f hf
  intro hi
  rcases infix_pieces hr hne hsep hi with hi | hi | hi
  · have : f <:+: a := by
      rcases hbr with rfl | hb
      · exact quoted_front hq hi
      · rcases infix_glue hb hi with hi | hi
        · exact hi
        · exact absurd hi (infix_none hne (fun c hc => by
            rw [List.mem_singleton.mp hc]
            exact hb))
    exact ha this
  · exact code_free (foreign_later f hf) h.source hs v hv hi
  · exact hb hi

theorem call_marks {letter : Char → Bool} (hl : SignLetters letter) {a s b v : Text} {e : Expr} {r : Text × Text × Text} (hr : r ∈ reduceSigns)
    (h : Insertable letter s e) (hv : Razor.nodeValue e = some v) (ha : ¬ Engine.callMark <:+: a) (hb : ¬ Engine.callMark <:+: b) :
    Text.replaceAll Engine.callMark [] (a ++ (wordCode (mu v) r.2.1 r.2.2 ++ b)) = a ++ (wordCode (rho v) r.2.1 r.2.2 ++ b) := by
  obtain ⟨s1, s2⟩ := sign_parts hr
  have e1 : ∀ j, a ++ (wordCode j r.2.1 r.2.2 ++ b) = a ++ ((c!"{{" ++ r.2.1 ++ c!" ") ++ (j ++ ((c!" " ++ r.2.2 ++ c!"}}") ++ b))) := by simp [wordCode]
  have hc : ∀ c ∈ c!"{ }-", c ∉ callMark := by decide
  rw [e1, e1, replaceAll_around (by decide) (by simp), replaceAll_around (by decide) (by simp), replaceAll_free ha, replaceAll_free hb, (marks_removed hl h hv).1]
  · intro c hm
    simp only [List.mem_append] at hm
    rcases hm with (hm | hm) | hm
    · exact hc c (by rw [List.mem_singleton.mp hm]; decide)
    · exact hc c (by rw [s2 c hm]; decide)
    · exact hc c ((by decide : ∀ x ∈ c!"}}", x ∈ c!"{ }-") c hm)
  · intro c hm
    simp only [List.mem_append] at hm
    rcases hm with (hm | hm) | hm
    · exact hc c ((by decide : ∀ x ∈ c!"{{", x ∈ c!"{ }-") c hm)
    · exact hc c (by rw [s1 c hm]; decide)
    · exact hc c (by rw [List.mem_singleton.mp hm]; decide)

/-- The rules after that of the calls, on a text that has no more delimiters. -/
theorem rules_after_call {letter : Char → Bool} (parser : Replacement → Text → Text) {t : Text} (hat : '@' ∉ t)
    (hno : ∀ f ∈ [c!"`", c!"\"<<", c!"\"{{", c!"_=!"], ¬ f <:+: t) : ((generate defaultDelims).drop 81).foldl (applyRule letter parser) t = t := by
  rw [split_rules 81 23, rules_idle parser 81 23 [['@']] (by decide +kernel)]
  · exact rules_after_slice parser hat hno
  · intro f hf
    rw [List.mem_singleton.mp hf]
    exact fun hi => hat (hi.subset (List.mem_singleton.mpr rfl))

end Verif.Lemmas
