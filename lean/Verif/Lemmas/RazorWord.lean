import Verif.Lemmas.RazorName
import Verif.Lemmas.RazorWordRun
/-!
# The rules of else and end in razor
-/

namespace Verif.Lemmas
open Verif Regex Spec Engine Razor Table

/-! ## The expressions -/

/-- The rule `@else`. -/
def elseRe : Re := .seq (.seq (.seq (.seq (.seq (lit '@') reduceRe) (lit 'e')) (lit 'l')) (lit 's')) (lit 'e')

def forRe : Re := .seq (.seq (lit 'f') (lit 'o')) (lit 'r')

/-- The words after `end`. -/
def closingRe : Re :=
  .alt (litRe c!"if") (.alt (litRe c!"range") (.alt (litRe c!"define") (.alt (litRe c!"block") (.alt (litRe c!"with")
    (.alt (.seq (.seq (.seq (.seq (.seq (litRe c!"for") (.star true (.cls ⟨false, [.blank]⟩))) (lit 'e')) (lit 'a')) (lit 'c')) (lit 'h'))
      (.alt (litRe c!"for") .eps))))))

/-- The rule `@end`. -/
def finRe : Re :=
  .seq (.seq (.seq (lit '@') reduceRe) (.group c!"command" (.seq (.seq (.seq (.seq (lit 'e') (lit 'n')) (lit 'd')) (.star true (.cls ⟨false, [.blank]⟩)))
    (.group [] closingRe)))) endRe

theorem else_entry : (table.drop 43).take 1 = [(c!"else", c!"{{${reduce1} else ${reduce2}}}", 0, elseRe)] := by
  decide +kernel

theorem fin_entry : (table.drop 44).take 1 = [(c!"various ends", c!"{{${reduce1} end ${reduce2}}}", 0, finRe)] := by
  decide +kernel

theorem run_word_yes {β : Type} (letter : Char → Bool) (w : Text) (p : Option Char) (s : Text) (c : Caps) (k : Cont β) :
    run letter (litRe w) p (w ++ s) c k = k (lastOr p w) s c := by
  unfold litRe
  rw [run_litRe_aux]
  have : Text.dropPrefix? w (w ++ s) = some s := Text.dropPrefix?_eq_some.mpr rfl
  simp only [run, this]

theorem run_word_no {β : Type} (letter : Char → Bool) {w s : Text} (h : ¬ w <+: s) (p : Option Char) (c : Caps) (k : Cont β) :
    run letter (litRe w) p s c k = none := by
  unfold litRe
  rw [run_litRe_aux]
  have : Text.dropPrefix? w s = none := by
    cases hd : Text.dropPrefix? w s with
    | none => rfl
    | some r =>
      have := Text.dropPrefix?_eq_some.mp hd
      exact absurd ⟨r, this.symm⟩ h
  simp only [run, this]

theorem matchAt_else (letter : Char → Bool) {r : Text × Text × Text} (h : r ∈ reduceSigns) (rest : Text) (p : Option Char) :
    ∃ caps, matchAt letter elseRe p ('@' :: (r.1 ++ (c!"else" ++ rest))) = some (('@' :: (r.1 ++ c!"else")).length, caps) ∧
      groupOf caps c!"reduce1" = r.2.1 ∧ groupOf caps c!"reduce2" = r.2.2 := by
  obtain ⟨d, h1, h2, hd⟩ := run_reduce h
  refine ⟨d, ?_, h1, h2⟩
  unfold matchAt elseRe
  rw [run_seq_eq, run_seq_eq, run_seq_eq, run_seq_eq, run_seq_eq, run_lit_cons]
  simp only [List.cons_append, List.nil_append]
  refine hd letter _ _ _ _ _ (by decide) (by decide) (fun p' => ?_)
  rw [run_lit_cons, run_lit_cons, run_lit_cons, run_lit_cons]
  simp
  omega

/-- The words after `end`. -/
theorem run_closing {β : Type} (letter : Char → Bool) {s s' : Text} (h : ClosingWord s s') {p : Option Char} {c : Caps} {k : Cont β} {res : β}
    (hk : ∀ p', k p' s' c = some res) : run letter closingRe p s c k = some res := by
  have dis : ∀ {m m' : Text} (t : Text), m.head? ≠ m'.head? → m ≠ [] → m' ≠ [] → ¬ m <+: m' ++ t := by
    intro m m' t hne h1 h2 ⟨u, hu⟩
    cases m with
    | nil => exact h1 rfl
    | cons x m =>
      cases m' with
      | nil => exact h2 rfl
      | cons y m' =>
        simp only [List.cons_append, List.cons.injEq] at hu
        exact hne (by simp [hu.1])
  have each : ∀ {s : Text} (p : Option Char), (∀ w e, (∀ c ∈ w, isBlank c = true) → s ≠ c!"for" ++ (w ++ (c!"each" ++ e))) →
      run letter (.seq (.seq (.seq (.seq (.seq (litRe c!"for") (.star true (.cls ⟨false, [.blank]⟩))) (lit 'e')) (lit 'a')) (lit 'c')) (lit 'h')) p s c k =
        none := by
    intro s p hs
    cases hr : run letter (.seq (.seq (.seq (.seq (.seq (litRe c!"for") (.star true (.cls ⟨false, [.blank]⟩))) (lit 'e')) (lit 'a')) (lit 'c')) (lit 'h')) p s c k with
    | none => rfl
    | some x =>
      obtain ⟨y, q, c', rfl, hf, _⟩ := run_sound letter _ hr
      obtain ⟨y, y4, _, rfl, hf, h4⟩ := fit_seq hf
      obtain ⟨y, y3, _, rfl, hf, h3⟩ := fit_seq hf
      obtain ⟨y, y2, _, rfl, hf, h2⟩ := fit_seq hf
      obtain ⟨y, y1, _, rfl, hf, h1⟩ := fit_seq hf
      obtain ⟨y, w, _, rfl, hf, hw⟩ := fit_seq hf
      obtain ⟨f1, f2, _, rfl, hf, g2⟩ := fit_seq (a := .seq (lit 'f') (lit 'o')) (b := lit 'r') hf
      obtain ⟨f0, f1, _, rfl, g0, g1⟩ := fit_seq hf
      rw [(fit_lit g0).1, (fit_lit g1).1, (fit_lit g2).1, (fit_lit h1).1, (fit_lit h2).1, (fit_lit h3).1, (fit_lit h4).1] at hs
      exact absurd (by simp) (hs w q (fun ch h => by rw [← has_blank letter]; exact fit_star_all hw ch h))
  unfold closingRe
  simp only [run_alt_eq]
  cases h with
  | word m s hm =>
    simp only [closingWords, List.mem_cons, List.not_mem_nil, or_false] at hm
    rcases hm with rfl | rfl | rfl | rfl | rfl
    · rw [run_word_yes, hk]
      rfl
    · rw [run_word_no letter (dis s' (by decide) (by decide) (by decide)), run_word_yes, hk]
      rfl
    · rw [run_word_no letter (dis s' (by decide) (by decide) (by decide)), run_word_no letter (dis s' (by decide) (by decide) (by decide)), run_word_yes, hk]
      rfl
    · rw [run_word_no letter (dis s' (by decide) (by decide) (by decide)), run_word_no letter (dis s' (by decide) (by decide) (by decide)),
        run_word_no letter (dis s' (by decide) (by decide) (by decide)), run_word_yes, hk]
      rfl
    · rw [run_word_no letter (dis s' (by decide) (by decide) (by decide)), run_word_no letter (dis s' (by decide) (by decide) (by decide)),
        run_word_no letter (dis s' (by decide) (by decide) (by decide)), run_word_no letter (dis s' (by decide) (by decide) (by decide)), run_word_yes, hk]
      rfl
  | forEach w s hw =>
    rw [run_word_no letter (dis _ (by decide) (by decide) (by decide)), run_word_no letter (dis _ (by decide) (by decide) (by decide)),
      run_word_no letter (dis _ (by decide) (by decide) (by decide)), run_word_no letter (dis _ (by decide) (by decide) (by decide)),
      run_word_no letter (dis _ (by decide) (by decide) (by decide))]
    rw [run_seq_eq, run_seq_eq, run_seq_eq, run_seq_eq, run_seq_eq, run_word_yes]
    rw [run_star_cls (r := res) (fun ch h => by rw [has_blank]; exact hw ch h) (by rintro _ ⟨⟩; rfl)]
    · rfl
    · simp only [List.cons_append, List.nil_append]
      rw [run_lit_cons, run_lit_cons, run_lit_cons, run_lit_cons]
      exact hk _
  | «for» _ hs =>
    rw [run_word_no letter (dis _ (by decide) (by decide) (by decide)), run_word_no letter (dis _ (by decide) (by decide) (by decide)),
      run_word_no letter (dis _ (by decide) (by decide) (by decide)), run_word_no letter (dis _ (by decide) (by decide) (by decide)),
      run_word_no letter (dis _ (by decide) (by decide) (by decide)), each]
    · rw [run_word_yes, hk]
      rfl
    · intro w e hw he
      exact hs w e hw (List.append_cancel_left he)
  | none _ hs =>
    rw [run_word_no letter (hs _ (by decide)), run_word_no letter (hs _ (by decide)), run_word_no letter (hs _ (by decide)),
      run_word_no letter (hs _ (by decide)), run_word_no letter (hs _ (by decide)), each, run_word_no letter (hs _ (by decide))]
    · simp only [Option.none_or]
      exact hk _
    · intro w e hw he
      exact hs c!"for" (by decide) ⟨_, he.symm⟩

theorem matchAt_fin (letter : Char → Bool) {r : Text × Text × Text} (h : r ∈ reduceSigns) {b b' : Text} (hc : Closes b b') (p : Option Char) :
    ∃ caps, matchAt letter finRe p ('@' :: (r.1 ++ (c!"end" ++ b))) = some (('@' :: (r.1 ++ (c!"end" ++ b))).length - b'.length, caps) ∧
      groupOf caps c!"reduce1" = r.2.1 ∧ groupOf caps c!"reduce2" = r.2.2 := by
  obtain ⟨d, h1, h2, hd⟩ := run_reduce h
  obtain ⟨w, s, s', rfl, hw, hs, hcl, hr⟩ := hc
  refine ⟨(c!"command", List.take ((c!"end" ++ (w ++ s)).length - s'.length) (c!"end" ++ (w ++ s))) ::
    ([], List.take (s.length - s'.length) s) :: d, ?_, ?_, ?_⟩
  · unfold matchAt finRe
    rw [run_seq_eq, run_seq_eq, run_seq_eq, run_lit_cons]
    simp only [List.cons_append, List.nil_append]
    refine hd letter _ _ _ _ _ (by decide) (by decide) (fun p' => ?_)
    rw [run_group_eq, run_seq_eq, run_seq_eq, run_seq_eq, run_seq_eq, run_lit_cons, run_lit_cons, run_lit_cons]
    refine run_star_cls (fun ch h => by rw [has_blank]; exact hw ch h) (fun ch h => by rw [has_blank]; exact hs ch h) ?_
    rw [run_group_eq]
    refine run_closing letter hcl (fun p'' => ?_)
    exact run_endRe hr (fun _ => rfl)
  · rw [← h1]
    simp [groupOf]
  · rw [← h2]
    simp [groupOf]

/-- The code that replaces a keyword. -/
theorem expand_else (caps : Caps) : expand (groupOf caps) c!"{{${reduce1} else ${reduce2}}}" =
    wordCode c!"else" (groupOf caps c!"reduce1") (groupOf caps c!"reduce2") := by
  simp [expand, expandAux, Razor.groupName, nameChar, Text.hasPrefix, Text.dropPrefix?, wordCode]

theorem expand_fin (caps : Caps) : expand (groupOf caps) c!"{{${reduce1} end ${reduce2}}}" =
    wordCode c!"end" (groupOf caps c!"reduce1") (groupOf caps c!"reduce2") := by
  simp [expand, expandAux, Razor.groupName, nameChar, Text.hasPrefix, Text.dropPrefix?, wordCode]

/-! ## Where the expressions do not match -/

theorem fit_else {letter : Char → Bool} {p : Option Char} {x q : Text} {c c' : Caps} (h : Fit letter elseRe p x q c c') :
    ∃ r ∈ reduceSigns, x = '@' :: (r.1 ++ c!"else") := by
  obtain ⟨y, y4, _, rfl, hf, h4⟩ := fit_seq h
  obtain ⟨y, y3, _, rfl, hf, h3⟩ := fit_seq hf
  obtain ⟨y, y2, _, rfl, hf, h2⟩ := fit_seq hf
  obtain ⟨y, y1, _, rfl, hf, h1⟩ := fit_seq hf
  obtain ⟨y, z, _, rfl, hf, h0⟩ := fit_seq hf
  obtain ⟨r, hr, rfl⟩ := List.mem_map.mp (fit_reduce h0)
  refine ⟨r, hr, ?_⟩
  rw [(fit_lit hf).1, (fit_lit h1).1, (fit_lit h2).1, (fit_lit h3).1, (fit_lit h4).1]
  simp

theorem fit_fin {letter : Char → Bool} {p : Option Char} {x q : Text} {c c' : Caps} (h : Fit letter finRe p x q c c') :
    ∃ r ∈ reduceSigns, ∃ y, x = '@' :: (r.1 ++ (c!"end" ++ y)) := by
  obtain ⟨y, y4, _, rfl, hf, h4⟩ := fit_seq h
  obtain ⟨y, y3, _, rfl, hf, h3⟩ := fit_seq hf
  obtain ⟨_, _, h3⟩ := fit_group h3
  obtain ⟨z, z4, _, rfl, h3, g4⟩ := fit_seq h3
  obtain ⟨z, z3, _, rfl, h3, g3⟩ := fit_seq h3
  obtain ⟨z, z2, _, rfl, h3, g2⟩ := fit_seq h3
  obtain ⟨z, z1, _, rfl, h3, g1⟩ := fit_seq h3
  obtain ⟨y, x, _, rfl, hf, h0⟩ := fit_seq hf
  obtain ⟨r, hr, rfl⟩ := List.mem_map.mp (fit_reduce h0)
  refine ⟨r, hr, z3 ++ (z4 ++ y4), ?_⟩
  rw [(fit_lit hf).1, (fit_lit h3).1, (fit_lit g1).1, (fit_lit g2).1]
  simp

/-- The signs end where another character comes. -/
theorem sign_split {r r' : Text × Text × Text} (hr : r ∈ reduceSigns) (hr' : r' ∈ reduceSigns) {c d : Char} {x y : Text} (hc : c ≠ '-' ∧ c ≠ '_')
    (hd : d ≠ '-' ∧ d ≠ '_') (h : r.1 ++ c :: x = r'.1 ++ d :: y) : c :: x = d :: y := by
  simp only [reduceSigns, List.mem_cons, List.not_mem_nil, or_false] at hr hr'
  obtain ⟨h1, h2⟩ := hc
  obtain ⟨h3, h4⟩ := hd
  have h1' := Ne.symm h1
  have h2' := Ne.symm h2
  have h3' := Ne.symm h3
  have h4' := Ne.symm h4
  rcases hr with rfl | rfl | rfl | rfl | rfl <;> rcases hr' with rfl | rfl | rfl | rfl | rfl <;> simp_all

/-- A name that does not begin with the word, and a local variable. -/
theorem name_not_word {letter : Char → Bool} (hl : PlainLetters letter) {v code b word q : Text} (hn : Printed letter v code)
    (hb : ∀ c, b.head? = some c → varChar letter c = false) (hw : ∀ name, VarName letter name → ¬ word <+: name) (hv : ∀ c ∈ word, varChar letter c = true)
    (he : ∃ t, word = 'e' :: t) {r : Text × Text × Text} (hr : r ∈ reduceSigns) : v ++ b ≠ r.1 ++ (word ++ q) := by
  intro h
  obtain ⟨wt, hwt⟩ := he
  cases hn with
  | «local» r' name hr' hu hn =>
    obtain ⟨t, rfl, _⟩ := hn
    rw [hwt] at h
    exact local_first hr hr' hu (c := 'e') (by decide) (by simpa using h)
  | global r' name hr' hn =>
    have h1 : name ++ b = word ++ q := by
      obtain ⟨c₀, t, rfl, hc₀⟩ := hn.first
      rw [hwt] at h ⊢
      exact (sign_split hr' hr ⟨(first_not_sign hl hc₀).1, (first_not_sign hl hc₀).2.1⟩ (by decide) (by simpa using h))
    rcases List.append_eq_append_iff.mp h1 with ⟨u, h1, h2⟩ | ⟨u, h1, h2⟩
    · cases u with
      | nil =>
        rw [List.append_nil] at h1
        exact hw _ hn (by rw [h1]; exact List.prefix_refl _)
      | cons e u =>
        have := hb e (by rw [h2]; rfl)
        rw [hv e (by rw [h1]; simp)] at this
        cases this
    · exact hw _ hn ⟨u, h1.symm⟩

theorem word_chars {letter : Char → Bool} (hl : PlainLetters letter) : (∀ c ∈ c!"else", varChar letter c = true) ∧ ∀ c ∈ c!"end", varChar letter c = true := by
  have key : ∀ c ∈ c!"elsnd", varChar letter c = true := by
    intro c hc
    have : ∀ c ∈ c!"elsnd", c.toNat < 128 ∧ c.isAlpha = true := by decide
    unfold varChar
    rw [hl.1 c (this c hc).1, (this c hc).2]
    rfl
  constructor <;> (intro c hc; apply key; revert c; decide)

theorem else_not_name {letter : Char → Bool} (hl : PlainLetters letter) {v code b : Text} (hn : Printed letter v code)
    (hb : ∀ c, b.head? = some c → varChar letter c = false) (p : Option Char) : matchAt letter elseRe p ('@' :: (v ++ b)) = none := by
  cases hm : matchAt letter elseRe p ('@' :: (v ++ b)) with
  | none => rfl
  | some n =>
    obtain ⟨x, q, hs, hf, _⟩ := matchAt_sound (n := n.1) (caps := n.2) hm
    obtain ⟨r, hr, rfl⟩ := fit_else hf
    simp only [List.cons_append, List.cons.injEq, true_and, List.append_assoc] at hs
    exact absurd (by simpa using hs) (name_not_word (q := q) hl hn hb (fun _ h => h.notElse) (word_chars hl).1 ⟨_, rfl⟩ hr)

theorem fin_not_name {letter : Char → Bool} (hl : PlainLetters letter) {v code b : Text} (hn : Printed letter v code)
    (hb : ∀ c, b.head? = some c → varChar letter c = false) (p : Option Char) : matchAt letter finRe p ('@' :: (v ++ b)) = none := by
  cases hm : matchAt letter finRe p ('@' :: (v ++ b)) with
  | none => rfl
  | some n =>
    obtain ⟨x, q, hs, hf, _⟩ := matchAt_sound (n := n.1) (caps := n.2) hm
    obtain ⟨r, hr, y, rfl⟩ := fit_fin hf
    simp only [List.cons_append, List.cons.injEq, true_and, List.append_assoc] at hs
    exact absurd (by simpa using hs) (name_not_word (q := y ++ q) hl hn hb (fun _ h => h.notEnd) (word_chars hl).2 ⟨_, rfl⟩ hr)

theorem else_not_fin {letter : Char → Bool} {r : Text × Text × Text} (h : r ∈ reduceSigns) (b : Text) (p : Option Char) :
    matchAt letter elseRe p ('@' :: (r.1 ++ (c!"end" ++ b))) = none := by
  cases hm : matchAt letter elseRe p ('@' :: (r.1 ++ (c!"end" ++ b))) with
  | none => rfl
  | some n =>
    obtain ⟨x, q, hs, hf, _⟩ := matchAt_sound (n := n.1) (caps := n.2) hm
    obtain ⟨r', hr, rfl⟩ := fit_else hf
    exfalso
    simp only [reduceSigns, List.mem_cons, List.not_mem_nil, or_false] at h hr
    rcases h with rfl | rfl | rfl | rfl | rfl <;> rcases hr with rfl | rfl | rfl | rfl | rfl <;> simp at hs

end Verif.Lemmas
