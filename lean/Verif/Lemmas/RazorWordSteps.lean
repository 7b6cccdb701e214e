import Verif.Lemmas.RazorWord
/-!
# The texts between the rules of else, end and variables
-/

namespace Verif.Lemmas
open Verif Regex Spec Engine Razor Table

theorem closingWord_like {s s' : Text} (h : ClosingWord s s') : ∃ m, (∀ c ∈ m, dropChar c = true) ∧ s = m ++ s' ∧
    (m = [] ∨ ∃ c t, m = c :: t ∧ isBlank c = false) ∧ ∀ u, PrefixLike s' u → ClosingWord (m ++ u) u := by
  cases h with
  | word m s hm =>
    refine ⟨m, ?_, rfl, .inr ?_, fun u _ => .word m u hm⟩
    · have : ∀ m ∈ closingWords, ∀ c ∈ m, dropChar c = true := by decide
      exact this m hm
    · simp only [closingWords, List.mem_cons, List.not_mem_nil, or_false] at hm
      rcases hm with rfl | rfl | rfl | rfl | rfl <;> exact ⟨_, _, rfl, by decide⟩
  | forEach w s hw =>
    refine ⟨c!"for" ++ (w ++ c!"each"), ?_, by simp, .inr ⟨_, _, rfl, by decide⟩, fun u _ => ?_⟩
    · intro c hc
      have h1 : ∀ c ∈ c!"for", dropChar c = true := by decide
      have h2 : ∀ c ∈ c!"each", dropChar c = true := by decide
      rcases List.mem_append.mp hc with hc | hc
      · exact h1 c hc
      · rcases List.mem_append.mp hc with hc | hc
        · simp [dropChar, hw c hc]
        · exact h2 c hc
    · have := ClosingWord.forEach w u hw
      simpa using this
  | «for» _ hs =>
    refine ⟨c!"for", by decide, rfl, .inr ⟨_, _, rfl, by decide⟩, fun u hu => .for u (fun w e hw he => ?_)⟩
    exact prefixLike_ne hu (x := w ++ c!"each") (by simp [brace_not_blank hw]) (fun e he' => hs w e hw (by simpa using he')) e (by simpa using he)
  | none _ hs =>
    refine ⟨[], by simp, rfl, .inl rfl, fun u hu => .none u (fun m hm hp => ?_)⟩
    have : ∀ m ∈ c!"for" :: closingWords, '{' ∉ m := by decide
    exact hs m hm (hu m (this m hm) hp)

theorem closes_dropped {b b' : Text} (h : Closes b b') : ∃ w, (∀ c ∈ w, dropChar c = true) ∧ b = w ++ b' ∧ ∀ u, PrefixLike b' u → Closes (w ++ u) u := by
  obtain ⟨w, s, s', rfl, hw, hs, hc, hr⟩ := h
  obtain ⟨m, hm, rfl, hh, hm'⟩ := closingWord_like hc
  obtain ⟨v, hv, rfl, hv'⟩ := remains_dropped hr
  refine ⟨w ++ (m ++ v), ?_, by simp, fun u hu => ?_⟩
  · intro c hc
    rcases List.mem_append.mp hc with hc | hc
    · simp [dropChar, hw c hc]
    · rcases List.mem_append.mp hc with hc | hc
      · exact hm c hc
      · exact dropped_chars hv c hc
  · refine ⟨w, m ++ (v ++ u), v ++ u, by simp, hw, ?_, hm' _ (prefixLike_front v hu), hv' u hu⟩
    intro c hc
    by_cases hb : c = '{'
    · subst hb
      decide
    · exact hs c (prefixLike_head (prefixLike_front m (prefixLike_front v hu)) hb hc)

/-! ## The texts -/

/-- A source, the texts after the rule of `else`, after the one of `end`, and after the one of variables. -/
inductive Steps (letter : Char → Bool) : Text → Text → Text → Text → Prop
  | plain {a : Text} : '@' ∉ a → Steps letter a a a a
  | var {a v code w t t1 t2 t3 : Text} : '@' ∉ a → NotCommented a → Printed letter v code → Ends letter (w ++ t) → (w ++ t).head? ≠ some '@' → Dropped w →
      (∀ u, PrefixLike t u → Remains (w ++ u) u) → Steps letter t t1 t2 t3 →
      Steps letter (a ++ '@' :: (v ++ (w ++ t))) (a ++ '@' :: (v ++ (w ++ t1))) (a ++ '@' :: (v ++ (w ++ t2))) (a ++ (code ++ t3))
  | els {a t t1 t2 t3 : Text} {r : Text × Text × Text} : '@' ∉ a → NotCommented a → NotQuoted a → r ∈ reduceSigns → NotHost letter t → NotIf t →
      Steps letter t t1 t2 t3 → Steps letter (a ++ '@' :: (r.1 ++ (c!"else" ++ t))) (a ++ (wordCode c!"else" r.2.1 r.2.2 ++ t1))
        (a ++ (wordCode c!"else" r.2.1 r.2.2 ++ t2)) (a ++ (wordCode c!"else" r.2.1 r.2.2 ++ t3))
  | fin {a w t t1 t2 t3 : Text} {r : Text × Text × Text} : '@' ∉ a → NotCommented a → NotQuoted a → r ∈ reduceSigns → NotHost letter (w ++ t) →
      (∀ c ∈ w, dropChar c = true) → (∀ u, PrefixLike t u → Closes (w ++ u) u) → Steps letter t t1 t2 t3 →
      Steps letter (a ++ '@' :: (r.1 ++ (c!"end" ++ (w ++ t)))) (a ++ '@' :: (r.1 ++ (c!"end" ++ (w ++ t1))))
        (a ++ (wordCode c!"end" r.2.1 r.2.2 ++ t2)) (a ++ (wordCode c!"end" r.2.1 r.2.2 ++ t3))

theorem statements_steps {letter : Char → Bool} {s t : Text} (h : Statements letter s t) : ∃ s1 s2, Steps letter s s1 s2 t := by
  induction h with
  | plain a ha => exact ⟨a, a, .plain ha⟩
  | var a v code b b' t ha hc hn he hh hr _ ih =>
    obtain ⟨s1, s2, ih⟩ := ih
    obtain ⟨w, hw, rfl, hw'⟩ := remains_dropped hr
    exact ⟨_, _, .var ha hc hn he hh hw hw' ih⟩
  | els a b t r ha hc hq hr hh hi _ ih =>
    obtain ⟨s1, s2, ih⟩ := ih
    exact ⟨_, _, .els ha hc hq hr hh hi ih⟩
  | fin a b b' t r ha hc hq hr hh hcl _ ih =>
    obtain ⟨s1, s2, ih⟩ := ih
    obtain ⟨w, hw, rfl, hw'⟩ := closes_dropped hcl
    exact ⟨_, _, .fin ha hc hq hr hh hw hw' ih⟩

theorem steps_like {letter : Char → Bool} {t t1 t2 t3 : Text} (h : Steps letter t t1 t2 t3) : PrefixLike t t1 ∧ PrefixLike t t2 := by
  induction h with
  | plain _ => exact ⟨fun _ _ h => h, fun _ _ h => h⟩
  | @var a v code w t t1 t2 t3 _ _ _ _ _ _ _ _ ih =>
    have := prefixLike_front (a ++ '@' :: (v ++ w)) ih.1
    have h2 := prefixLike_front (a ++ '@' :: (v ++ w)) ih.2
    exact ⟨by simpa using this, by simpa using h2⟩
  | els _ _ _ _ _ _ _ ih =>
    rw [wordCode_brace, wordCode_brace]
    exact ⟨prefixLike_code _ _ _, prefixLike_code _ _ _⟩
  | @fin a w t t1 t2 t3 r _ _ _ _ _ _ _ _ ih =>
    have := prefixLike_front (a ++ '@' :: (r.1 ++ (c!"end" ++ w))) ih.1
    rw [wordCode_brace]
    exact ⟨by simpa using this, prefixLike_code _ _ _⟩

/-! ## The source -/

theorem notCommented_front {w a : Text} (hw : '#' ∉ w ∧ '/' ∉ w) (h : NotCommented a) : NotCommented (w ++ a) := by
  intro u m v hm hv he
  rcases List.append_eq_append_iff.mp he with ⟨x, h1, h2⟩ | ⟨x, h1, h2⟩
  · exact h x m v hm hv h2
  · cases x with
    | nil =>
      rw [List.nil_append] at h2
      exact h [] m v hm hv (by simpa using h2.symm)
    | cons d x =>
      have : ∀ m ∈ commentSigns, ∃ c ∈ ['#', '/'], m.head? = some c := by decide
      obtain ⟨c, hc, hh⟩ := this m hm
      cases m with
      | nil => cases hh
      | cons e m =>
        cases hh
        simp only [List.cons_append, List.cons.injEq] at h2
        rw [← h2.1] at h1
        simp only [List.mem_cons, List.not_mem_nil, or_false] at hc
        rcases hc with rfl | rfl
        · exact hw.1 (by rw [h1]; simp)
        · exact hw.2 (by rw [h1]; simp)

theorem wsource_front {letter : Char → Bool} {w t : Text} (hw : ∀ c ∈ w, dropChar c = true) (h : WSource letter t) : WSource letter (w ++ t) := by
  obtain ⟨h0, h1, h2, _⟩ := drop_chars hw
  have hat : ∀ {a : Text}, '@' ∉ a → '@' ∉ w ++ a := by
    intro a ha
    simp [h0, ha]
  cases h with
  | plain ha => exact .plain (hat ha)
  | var ha hc hn he hh hs =>
    rw [← List.append_assoc]
    exact .var (hat ha) (notCommented_front ⟨h1, h2⟩ hc) hn he hh hs
  | els ha hc hr hh hi hs =>
    rw [← List.append_assoc]
    exact .els (hat ha) (notCommented_front ⟨h1, h2⟩ hc) hr hh hi hs
  | fin ha hc hr hh hs =>
    rw [← List.append_assoc]
    exact .fin (hat ha) (notCommented_front ⟨h1, h2⟩ hc) hr hh hs

theorem steps_source {letter : Char → Bool} {t t1 t2 t3 : Text} (h : Steps letter t t1 t2 t3) : WSource letter t := by
  induction h with
  | plain ha => exact .plain ha
  | var ha hc hn he hh hw _ _ ih => exact .var ha hc hn he hh (wsource_front (dropped_chars hw) ih)
  | els ha hc _ hr hh hi _ ih => exact .els ha hc hr hh hi ih
  | fin ha hc _ hr hh hw _ _ ih => exact .fin ha hc hr hh (wsource_front hw ih)

/-! ## The two rules -/

theorem else_starts {letter : Char → Bool} (p : Option Char) (ch : Char) (t : Text) (h : ch ≠ '@') : matchAt letter elseRe p (ch :: t) = none := by
  cases hm : matchAt letter elseRe p (ch :: t) with
  | none => rfl
  | some n =>
    obtain ⟨x, q, hs, hf, _⟩ := matchAt_sound (n := n.1) (caps := n.2) hm
    obtain ⟨r, _, rfl⟩ := fit_else hf
    simp only [List.cons_append, List.cons.injEq] at hs
    exact absurd hs.1 h

theorem fin_starts {letter : Char → Bool} (p : Option Char) (ch : Char) (t : Text) (h : ch ≠ '@') : matchAt letter finRe p (ch :: t) = none := by
  cases hm : matchAt letter finRe p (ch :: t) with
  | none => rfl
  | some n =>
    obtain ⟨x, q, hs, hf, _⟩ := matchAt_sound (n := n.1) (caps := n.2) hm
    obtain ⟨r, _, y, rfl⟩ := fit_fin hf
    simp only [List.cons_append, List.cons.injEq] at hs
    exact absurd hs.1 h

/-- The rule of `else`. -/
theorem replaceRe_else {letter : Char → Bool} (hl : PlainLetters letter) {out : Text → Caps → Text}
    (hout : ∀ x caps, out x caps = wordCode c!"else" (groupOf caps c!"reduce1") (groupOf caps c!"reduce2")) {t t1 t2 t3 : Text}
    (h : Steps letter t t1 t2 t3) : ∀ p, Regex.replaceAux letter elseRe out 0 p t = t1 := by
  induction h with
  | plain ha => exact replaceAux_plain else_starts _ ha
  | @var a v code w t t1 t2 t3 ha _ hn he _ hw _ _ ih =>
    intro p
    have := replaceAux_over (out := out) (x := v ++ w) (q := t) else_starts ha (by simp [printed_not hl hn (c := '@') (by decide), (drop_chars (dropped_chars hw)).1])
      (fun p => by rw [List.append_assoc]; exact else_not_name hl hn (fun c hc => (he.next c hc).1) p) ih p
    simpa using this
  | @els a t t1 t2 t3 r ha _ _ hr _ _ _ ih =>
    intro p
    have := replaceAux_match (out := out) (x := r.1 ++ c!"else") (q := t) (code := wordCode c!"else" r.2.1 r.2.2) else_starts ha (fun p => by
      obtain ⟨caps, h1, h2, h3⟩ := matchAt_else letter hr t p
      refine ⟨caps, ?_, fun m => by rw [hout, h2, h3]⟩
      rw [List.append_assoc, h1]
      rfl) ih p
    simpa using this
  | @fin a w t t1 t2 t3 r ha _ _ hr _ hw _ _ ih =>
    intro p
    have := replaceAux_over (out := out) (x := r.1 ++ (c!"end" ++ w)) (q := t) else_starts ha (by simp [(sign_at hr).1, (drop_chars hw).1])
      (fun p => by rw [List.append_assoc, List.append_assoc]; exact else_not_fin hr _ p) ih p
    simpa using this

/-- The rule of `end`. -/
theorem replaceRe_fin {letter : Char → Bool} (hl : PlainLetters letter) {out : Text → Caps → Text}
    (hout : ∀ x caps, out x caps = wordCode c!"end" (groupOf caps c!"reduce1") (groupOf caps c!"reduce2")) {t t1 t2 t3 : Text}
    (h : Steps letter t t1 t2 t3) : ∀ p, Regex.replaceAux letter finRe out 0 p t1 = t2 := by
  induction h with
  | plain ha => exact replaceAux_plain fin_starts _ ha
  | @var a v code w t t1 t2 t3 ha _ hn he _ hw _ hst ih =>
    intro p
    have he1 := ends_like hl (prefixLike_front w (steps_like hst).1) he
    have := replaceAux_over (out := out) (x := v ++ w) (q := t1) fin_starts ha (by simp [printed_not hl hn (c := '@') (by decide), (drop_chars (dropped_chars hw)).1])
      (fun p => by rw [List.append_assoc]; exact fin_not_name hl hn (fun c hc => (he1.next c hc).1) p) ih p
    simpa using this
  | @els a t t1 t2 t3 r ha _ _ hr _ _ _ ih =>
    intro p
    have hat := wordCode_at hr (word := c!"else") (by decide)
    have := replaceAux_before (letter := letter) (out := out) fin_starts (a ++ wordCode c!"else" r.2.1 r.2.2) t1 (by simp [ha, hat]) p
    rw [ih] at this
    simpa using this
  | @fin a w t t1 t2 t3 r ha _ _ hr _ hw hcl hst ih =>
    intro p
    have := replaceAux_match (out := out) (x := r.1 ++ (c!"end" ++ w)) (q := t1) (code := wordCode c!"end" r.2.1 r.2.2) fin_starts ha (fun p => by
      obtain ⟨caps, h1, h2, h3⟩ := matchAt_fin letter hr (hcl t1 (steps_like hst).1) p
      refine ⟨caps, ?_, fun m => by rw [hout, h2, h3]⟩
      rw [List.append_assoc, List.append_assoc, h1]
      simp
      omega) ih p
    simpa using this

/-! ## Before the rule of variables -/

theorem variables_front {letter : Char → Bool} {y t t' : Text} (hy : '@' ∉ y) (h : Variables letter t t') :
    Variables letter (y ++ '}' :: t) (y ++ '}' :: t') := by
  have nc : ∀ {a : Text}, NotCommented a → NotCommented (y ++ '}' :: a) := by
    intro a h u m v hm hv he
    have hmv : '}' ∉ m ++ v := by
      have : ∀ m ∈ commentSigns, '}' ∉ m := by decide
      intro hi
      rcases List.mem_append.mp hi with hi | hi
      · exact this m hm hi
      · exact absurd (hv _ hi) (by decide)
    rcases List.append_eq_append_iff.mp he with ⟨x, h1, h2⟩ | ⟨x, h1, h2⟩
    · cases x with
      | nil =>
        rw [List.nil_append] at h2
        exact hmv (by rw [← h2]; simp)
      | cons d x =>
        simp only [List.cons_append, List.cons.injEq] at h2
        exact h x m v hm hv h2.2
    · exact hmv (by rw [h2]; simp)
  cases h with
  | plain a ha => exact .plain _ (by simp [hy, ha])
  | var a v code b b' t' ha hc hn he hh hr hv =>
    have := Variables.var (letter := letter) (y ++ '}' :: a) v code b b' t' (by simp [hy, ha]) (nc hc) hn he hh hr hv
    simpa using this

theorem steps_variables {letter : Char → Bool} (hl : PlainLetters letter) {t t1 t2 t3 : Text} (h : Steps letter t t1 t2 t3) : Variables letter t2 t3 := by
  have code : ∀ {a word : Text} {r : Text × Text × Text} {t t' : Text}, '@' ∉ a → r ∈ reduceSigns → '@' ∉ word → Variables letter t t' →
      Variables letter (a ++ (wordCode word r.2.1 r.2.2 ++ t)) (a ++ (wordCode word r.2.1 r.2.2 ++ t')) := by
    intro a word r t t' ha hr hw h
    obtain ⟨_, h1, h2⟩ := sign_at hr
    have := variables_front (y := a ++ (c!"{{" ++ (r.2.1 ++ (c!" " ++ (word ++ (c!" " ++ (r.2.2 ++ c!"}"))))))) (by simp [ha, h1, h2, hw]) h
    simpa [wordCode] using this
  induction h with
  | plain ha => exact .plain _ ha
  | @var a v code w t t1 t2 t3 ha hc hn he hh _ hr hst ih =>
    have hp := (steps_like hst).2
    have := Variables.var a v code (w ++ t2) t2 t3 ha hc hn (ends_like hl (prefixLike_front w hp) he)
      (fun h => hh (prefixLike_head (prefixLike_front w hp) (by decide) h)) (hr t2 hp) ih
    simpa using this
  | els ha _ _ hr _ _ _ ih => exact code ha hr (by decide) ih
  | fin ha _ _ hr _ _ _ _ ih => exact code ha hr (by decide) ih

/-! ## What the later rules look for -/

theorem notQuoted_front {y a : Text} {c : Char} (hc : c ≠ '"' ∧ c ≠ '{') (h : NotQuoted a) : NotQuoted (y ++ c :: a) := by
  intro u
  constructor
  · intro he
    rcases List.append_eq_append_iff.mp he with ⟨x, h1, h2⟩ | ⟨x, h1, h2⟩
    · cases x with
      | nil =>
        simp only [List.nil_append, List.cons.injEq] at h2
        exact hc.1 h2.1
      | cons d x =>
        simp only [List.cons_append, List.cons.injEq] at h2
        exact (h x).1 h2.2
    · cases x with
      | nil =>
        simp only [List.nil_append, List.cons.injEq] at h2
        exact hc.1 h2.1.symm
      | cons d x => simp at h2
  · intro he
    rcases List.append_eq_append_iff.mp he with ⟨x, h1, h2⟩ | ⟨x, h1, h2⟩
    · cases x with
      | nil =>
        simp only [List.nil_append, List.cons.injEq] at h2
        exact hc.1 h2.1
      | cons d x =>
        simp only [List.cons_append, List.cons.injEq] at h2
        exact (h x).2 h2.2
    · cases x with
      | nil =>
        simp only [List.nil_append, List.cons.injEq] at h2
        exact hc.1 h2.1.symm
      | cons d x =>
        cases x with
        | nil =>
          simp only [List.cons_append, List.nil_append, List.cons.injEq] at h2
          exact hc.2 h2.2.1.symm
        | cons e x => simp at h2

/-- A sign is not in the code of a keyword, nor across its beginning. -/
theorem infix_word {f a u : Text} {r : Text × Text × Text} {word : Text} (hr : r ∈ reduceSigns) (hw : word = c!"else" ∨ word = c!"end")
    (hq : NotQuoted a) (hf : f ∈ laterSigns) (h : f <:+: a ++ (wordCode word r.2.1 r.2.2 ++ u)) : f <:+: a ∨ f <:+: u := by
  have h1 : ∀ f ∈ laterSigns, f ≠ [] ∧ '}' ∉ f ∧ ('{' ∈ f → f = c!"\"{{") := by decide
  obtain ⟨hne, hcl, hop⟩ := h1 f hf
  have h2 : a ++ (wordCode word r.2.1 r.2.2 ++ u) = (a ++ '{' :: '{' :: (r.2.1 ++ (c!" " ++ (word ++ (c!" " ++ r.2.2))))) ++ '}' :: ([] ++ '}' :: u) := by
    simp [wordCode]
  rw [h2] at h
  have inner : ∀ r ∈ reduceSigns, ∀ word ∈ [c!"else", c!"end"], ∀ f ∈ laterSigns, f.all (fun c => (r.2.1 ++ (c!" " ++ (word ++ (c!" " ++ r.2.2)))).elem c) = false := by
    decide +kernel
  have hin : ¬ f <:+: r.2.1 ++ (c!" " ++ (word ++ (c!" " ++ r.2.2))) := by
    intro hi
    have := inner r hr word (by simpa using hw) f hf
    rw [Bool.eq_false_iff] at this
    exact this (List.all_eq_true.mpr (fun c hc => by rw [List.elem_eq_mem]; exact decide_eq_true (hi.subset hc)))
  rcases infix_glue hcl h with h | h
  · by_cases hb : '{' ∈ f
    · rw [hop hb] at h ⊢
      obtain ⟨x, v, hx⟩ := h
      rw [List.append_assoc] at hx
      rcases List.append_eq_append_iff.mp hx with ⟨a', h3, h4⟩ | ⟨a', h3, h4⟩
      · cases a' with
        | nil => simp at h4
        | cons d a' =>
          simp only [List.cons_append, List.nil_append, List.cons.injEq] at h4
          obtain ⟨rfl, h4⟩ := h4
          cases a' with
          | nil => exact absurd h3 (hq x).1
          | cons d a' =>
            simp only [List.cons_append, List.cons.injEq] at h4
            obtain ⟨rfl, h4⟩ := h4
            cases a' with
            | nil => exact absurd h3 (hq x).2
            | cons d a' =>
              simp only [List.cons_append, List.cons.injEq] at h4
              obtain ⟨rfl, h4⟩ := h4
              exact .inl ⟨x, a', by rw [h3]; simp⟩
      · have hm : '"' ∈ '{' :: '{' :: (r.2.1 ++ (c!" " ++ (word ++ (c!" " ++ r.2.2)))) := by
          rw [h4]
          simp
        have : ∀ r ∈ reduceSigns, '"' ∉ r.2.1 ∧ '"' ∉ r.2.2 := by decide
        obtain ⟨h5, h6⟩ := this r hr
        rcases hw with rfl | rfl <;> simp [h5, h6] at hm
    · rcases infix_glue hb h with h | h
      · exact .inl h
      · rcases infix_glue (a := []) hb h with h | h
        · exact absurd (List.infix_nil.mp h) hne
        · exact absurd h hin
  · rcases infix_glue hcl h with h | h
    · exact absurd (List.infix_nil.mp h) hne
    · exact .inr h

theorem steps_later {letter : Char → Bool} (hl : PlainLetters letter) {f : Text} (hf : f ∈ laterSigns) {t t1 t2 t3 : Text} (h : Steps letter t t1 t2 t3) :
    ∀ x : Text, (∀ a, NotQuoted a → NotQuoted (x ++ a)) → f <:+: x ++ t2 → f <:+: x ++ t := by
  have notq : ∀ {letter : Char → Bool} {v code w : Text}, PlainLetters letter → Printed letter v code → Dropped w →
      ∃ y c, v ++ w = y ++ [c] ∧ c ≠ '"' ∧ c ≠ '{' := by
    intro letter v code w hl hn hw
    rcases hw with rfl | ⟨u, _, rfl⟩
    · have hne : v ≠ [] := by
        cases hn with
        | global r name hr hn =>
          obtain ⟨c₀, t, rfl, _⟩ := hn.first
          simp
        | «local» r name hr hu hn =>
          obtain ⟨t, rfl, _⟩ := hn
          simp
      refine ⟨v.dropLast, v.getLast hne, by rw [List.append_nil, List.dropLast_concat_getLast], ?_, ?_⟩
      · intro h
        exact printed_not hl hn (c := '"') (by decide) (h ▸ List.getLast_mem hne)
      · intro h
        exact printed_not hl hn (c := '{') (by decide) (h ▸ List.getLast_mem hne)
    · exact ⟨v ++ u, ';', by simp, by decide, by decide⟩
  induction h with
  | plain ha => exact fun x _ h => h
  | @var a v code w t t1 t2 t3 ha _ hn he _ hw _ hst ih =>
    intro x hx h
    obtain ⟨y, c, hy, hc⟩ := notq hl hn hw
    have := ih (x ++ (a ++ '@' :: (v ++ w))) (fun b hb => by
      rw [hy]
      have := notQuoted_front (y := x ++ (a ++ '@' :: y)) hc hb
      simpa using this) (by simpa using h)
    simpa using this
  | @els a t t1 t2 t3 r ha _ hq hr _ _ _ ih =>
    intro x hx h
    rw [← List.append_assoc] at h
    rcases infix_word hr (.inl rfl) (hx a hq) hf h with h | h
    · exact h.trans ⟨[], '@' :: (r.1 ++ (c!"else" ++ t)), by simp⟩
    · exact (ih [] (fun _ h => h) h).trans ⟨x ++ (a ++ '@' :: (r.1 ++ c!"else")), [], by simp⟩
  | @fin a w t t1 t2 t3 r ha _ hq hr _ hw _ _ ih =>
    intro x hx h
    rw [← List.append_assoc] at h
    rcases infix_word hr (.inr rfl) (hx a hq) hf h with h | h
    · exact h.trans ⟨[], '@' :: (r.1 ++ (c!"end" ++ (w ++ t))), by simp⟩
    · exact (ih [] (fun _ h => h) h).trans ⟨x ++ (a ++ '@' :: (r.1 ++ (c!"end" ++ w))), [], by simp⟩

/-! ## The rules -/

theorem rules_before_else {letter : Char → Bool} (hl : PlainLetters letter) (parser : Replacement → Text → Text) {t : Text} (h : WSource letter t)
    (hs : NoOtherSign t) : (((generate defaultDelims).drop 2).take 41).foldl (applyRule letter parser) t = t := by
  refine foldl_idle parser _ (fun r hr => ?_)
  obtain ⟨e, hmem, hcomp⟩ := rules_compiled 2 41 r hr
  have := table_word_bad e hmem
  simp only [Bool.or_eq_true] at this
  rcases this with ((h' | h') | h') | h'
  · exact rule_idle parser hcomp h' (hs _ (by decide))
  · exact rule_idle parser hcomp h' (hs _ (by decide))
  · exact rule_idle parser hcomp h' (hs _ (by decide))
  · rw [applyRule_compiled hcomp]
    exact replaceRe_none (fun p x q caps hfit _ hx => not_word_bad hl h hx (leadsToWordBad_sound hl hfit h'))

theorem rules_between {letter : Char → Bool} (hl : PlainLetters letter) (parser : Replacement → Text → Text) {t : Text} (h : Source letter t) :
    (((generate defaultDelims).drop 45).take 86).foldl (applyRule letter parser) t = t := by
  refine foldl_idle parser _ (fun r hr => ?_)
  obtain ⟨e, hmem, hcomp⟩ := rules_compiled 45 86 r hr
  rw [applyRule_compiled hcomp]
  exact replaceRe_none (fun p x q caps hfit _ hx => not_bad hl h hx (leadsToBad_sound hl hfit (table_name_bad e hmem)))

theorem rule_else {letter : Char → Bool} (hl : PlainLetters letter) (parser : Replacement → Text → Text) {t t1 t2 t3 : Text}
    (h : Steps letter t t1 t2 t3) : (((generate defaultDelims).drop 43).take 1).foldl (applyRule letter parser) t = t1 :=
  rule_one parser else_entry (fun _ ho => replaceRe_else hl (fun x caps => by rw [ho, expand_else]) h)

theorem rule_fin {letter : Char → Bool} (hl : PlainLetters letter) (parser : Replacement → Text → Text) {t t1 t2 t3 : Text}
    (h : Steps letter t t1 t2 t3) : (((generate defaultDelims).drop 44).take 1).foldl (applyRule letter parser) t1 = t2 :=
  rule_one parser fin_entry (fun _ ho => replaceRe_fin hl (fun x caps => by rw [ho, expand_fin]) h)

end Verif.Lemmas
