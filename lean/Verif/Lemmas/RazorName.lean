import Verif.Lemmas.RazorNameTable
import Verif.Lemmas.RazorLike
/-!
# The rule of the variables of razor
-/

namespace Verif.Lemmas
open Verif Regex Spec Engine Razor Table

/-! ## The expression -/

/-- `[sp];`, optional. -/
def endRe : Re := .opt true (.seq (.star true (.cls ⟨false, [.blank]⟩)) (lit ';'))

/-- The rule `@name`. -/
def nameRe : Re :=
  .seq (.seq (.seq (lit '@') reduceRe)
    (.group c!"name" (.seq (.cls ⟨false, [.letter, .chr '_']⟩) (.star true (.cls ⟨false, [.letter, .digit, .chr '_', .chr '.']⟩))))) endRe

theorem name_entry : (table.drop 131).take 1 = [(c!"Global variables - @var", c!"{{${reduce1} $$.${name} ${reduce2}}}", 0, nameRe)] := by
  decide +kernel

/-- The rules `@.name` and `@name` with the names that can be assigned. -/
def wideRe : Re :=
  .group c!"name" (.seq (.cls ⟨false, [.letter, .digit, .chr '_', .chr '+', .chr '*', .chr '%', .chr '#', .chr '!', .chr '~']⟩)
    (.star true (.cls ⟨false, [.letter, .digit, .chr '_', .chr '+', .chr '*', .chr '%', .chr '#', .chr '!', .chr '~', .chr '.', .chr '-']⟩)))

theorem wide_entry : ((table.drop 132).take 2).map (fun e => e.2.2.2) =
    [.seq (.seq (.seq (.seq (lit '@') reduceRe) (lit '.')) wideRe) endRe, .seq (.seq (.seq (lit '@') reduceRe) wideRe) endRe] := by
  decide +kernel

/-- The rule `@$name`. -/
def localRe : Re :=
  .seq (.seq (.seq (lit '@') reduceRe)
    (.group c!"name" (.seq (.cls ⟨false, [.chr '$', .chr '.']⟩) (.star true (.cls ⟨false, [.letter, .digit, .chr '_', .chr '.']⟩))))) endRe

theorem local_entry : (table.drop 134).take 1 = [(c!"Local variables - @$var or @.var", c!"{{${reduce1} ${name} ${reduce2}}}", 0, localRe)] := by
  decide +kernel

theorem has_blank (letter : Char → Bool) (ch : Char) : Cls.has letter ⟨false, [.blank]⟩ ch = isBlank ch := by
  simp [Cls.has, Item.has, isBlank]

theorem run_endRe {β : Type} {letter : Char → Bool} {p : Option Char} {b b' : Text} {c : Caps} {k : Cont β} {r : β} (hr : Remains b b')
    (hk : ∀ p, k p b' c = some r) : run letter endRe p b c k = some r := by
  unfold endRe
  rw [run_opt_eq, run_seq_eq]
  rcases hr with ⟨w, hw, rfl⟩ | ⟨rfl, hn⟩
  · rw [show (run letter (.star true (.cls ⟨false, [.blank]⟩)) p (w ++ ';' :: b') c fun p s c => run letter (lit ';') p s c k) = some r from
      run_star_cls (fun ch h => by rw [has_blank]; exact hw ch h) (by rintro _ ⟨⟩; rfl) (by rw [run_lit]; simp [hk])]
    rfl
  · have : (run letter (.star true (.cls ⟨false, [.blank]⟩)) p b' c fun p s c => run letter (lit ';') p s c k) = none := by
      cases hrun : (run letter (.star true (.cls ⟨false, [.blank]⟩)) p b' c fun p s c => run letter (lit ';') p s c k) with
      | none => rfl
      | some x =>
        obtain ⟨w, q, c', hb, hf, hq⟩ := run_sound letter _ hrun
        rw [run_lit] at hq
        cases q with
        | nil => cases hq
        | cons d q =>
          simp only at hq
          split at hq
          · rename_i hd
            subst hd
            exact absurd hb (hn w q (fun ch h => by rw [← has_blank letter]; exact fit_star_all hf ch h))
          · cases hq
    rw [this]
    exact hk p

/-- The search of a name after the signs. -/
theorem run_token {letter : Char → Bool} {K : Cls} {r : Text × Text × Text} (hr : r ∈ reduceSigns) {c₀ : Char} {t b b' : Text} (hd : c₀ ≠ '-') (hu : c₀ ≠ '_')
    (hK : K.has letter c₀ = true) (ht : ∀ c ∈ t, varChar letter c = true ∨ c = '.')
    (hb : ∀ ch, b.head? = some ch → varChar letter ch = false ∧ ch ∉ c!".-(") (hrem : Remains b b') (p : Option Char) :
    ∃ caps, matchAt letter (.seq (.seq (.seq (lit '@') reduceRe)
        (.group c!"name" (.seq (.cls K) (.star true (.cls ⟨false, [.letter, .digit, .chr '_', .chr '.']⟩))))) endRe) p ('@' :: (r.1 ++ (c₀ :: t) ++ b)) =
        some (('@' :: (r.1 ++ (c₀ :: t) ++ b)).length - b'.length, caps) ∧
      groupOf caps c!"name" = c₀ :: t ∧ groupOf caps c!"reduce1" = r.2.1 ∧ groupOf caps c!"reduce2" = r.2.2 := by
  obtain ⟨d, h1, h2, hrun⟩ := run_reduce hr
  refine ⟨(c!"name", c₀ :: t) :: d, ?_, ?_, ?_, ?_⟩
  · unfold matchAt
    rw [run_seq_eq, run_seq_eq, run_seq_eq, run_lit_cons, List.append_assoc, List.cons_append]
    refine hrun letter _ _ _ _ _ hd hu (fun p' => ?_)
    rw [run_group_eq, run_seq_eq, run_cls_cons hK]
    refine run_star_cls ?_ ?_ ?_
    · intro ch h
      simp only [Cls.has, Item.has, List.any_cons, List.any_nil, bne_iff_ne, ne_eq, Bool.not_eq_false, Bool.or_eq_true, beq_iff_eq]
      rcases ht ch h with h | rfl
      · simp only [varChar, Bool.or_eq_true, beq_iff_eq] at h
        rcases h with (h | h) | h <;> simp [h]
      · simp
    · intro ch h
      obtain ⟨h1, h2⟩ := hb ch h
      simp only [varChar, Bool.or_eq_false_iff, beq_eq_false_iff_ne] at h1
      have h3 : ch ≠ '.' := by
        rintro rfl
        exact h2 (by decide)
      simp [Cls.has, Item.has, h1.1.1, h1.1.2, h1.2, h3]
    · refine run_endRe hrem (fun _ => ?_)
      congr 3
      rw [show (c₀ :: (t ++ b)).length - b.length = (c₀ :: t).length by simp; omega]
      rw [show c₀ :: (t ++ b) = (c₀ :: t) ++ b from rfl, List.take_left]
  · simp [groupOf]
  · rw [← h1]
    simp [groupOf]
  · rw [← h2]
    simp [groupOf]

theorem first_not_sign {letter : Char → Bool} (hl : PlainLetters letter) {c : Char} (h : letter c = true) : c ≠ '-' ∧ c ≠ '_' ∧ c ≠ '$' ∧ c ≠ '.' := by
  refine ⟨?_, ?_, ?_, ?_⟩ <;> (rintro rfl; rw [hl.1 _ (by decide)] at h; revert h; decide)

theorem matchAt_name {letter : Char → Bool} (hl : PlainLetters letter) {r : Text × Text × Text} (hr : r ∈ reduceSigns) {name b b' : Text}
    (hn : VarName letter name) (hb : ∀ ch, b.head? = some ch → varChar letter ch = false ∧ ch ∉ c!".-(") (hrem : Remains b b') (p : Option Char) :
    ∃ caps, matchAt letter nameRe p ('@' :: (r.1 ++ name ++ b)) = some (('@' :: (r.1 ++ name ++ b)).length - b'.length, caps) ∧
      groupOf caps c!"name" = name ∧ groupOf caps c!"reduce1" = r.2.1 ∧ groupOf caps c!"reduce2" = r.2.2 := by
  obtain ⟨c₀, t, rfl, hc₀⟩ := hn.first
  obtain ⟨h1, h2, _⟩ := first_not_sign hl hc₀
  exact run_token hr h1 h2 (by simp [Cls.has, Item.has, hc₀]) (fun c hc => .inl (hn.chars c (List.mem_cons_of_mem _ hc))) hb hrem p

theorem matchAt_local {letter : Char → Bool} {r : Text × Text × Text} (hr : r ∈ reduceSigns) {name b b' : Text}
    (hn : LocalName letter name) (hb : ∀ ch, b.head? = some ch → varChar letter ch = false ∧ ch ∉ c!".-(") (hrem : Remains b b') (p : Option Char) :
    ∃ caps, matchAt letter localRe p ('@' :: (r.1 ++ name ++ b)) = some (('@' :: (r.1 ++ name ++ b)).length - b'.length, caps) ∧
      groupOf caps c!"name" = name ∧ groupOf caps c!"reduce1" = r.2.1 ∧ groupOf caps c!"reduce2" = r.2.2 := by
  obtain ⟨t, rfl, ht⟩ := hn
  exact run_token hr (by decide) (by decide) rfl ht hb hrem p

/-! ## Where the expressions do not match -/

/-- After a delimiter, signs and a character that is neither a sign nor `$`, there is no local variable. -/
theorem local_first {r r' : Text × Text × Text} (hr : r ∈ reduceSigns) (hr' : r' ∈ reduceSigns) (hu : '_' ∉ r'.1) {c : Char} {x y : Text}
    (hc : c ≠ '-' ∧ c ≠ '$') : r'.1 ++ '$' :: x ≠ r.1 ++ c :: y := by
  intro h
  simp only [reduceSigns, List.mem_cons, List.not_mem_nil, or_false] at hr hr'
  obtain ⟨h1, h2⟩ := hc
  have h1' := Ne.symm h1
  have h2' := Ne.symm h2
  rcases hr' with rfl | rfl | rfl | rfl | rfl <;> rcases hr with rfl | rfl | rfl | rfl | rfl <;> simp_all

theorem fit_signs {letter : Char → Bool} {p : Option Char} {x q : Text} {c c' : Caps} (h : Fit letter (.seq (lit '@') reduceRe) p x q c c') :
    ∃ r ∈ reduceSigns, x = '@' :: r.1 := by
  obtain ⟨x1, x2, _, rfl, h1, h2⟩ := fit_seq h
  obtain ⟨r, hr, rfl⟩ := List.mem_map.mp (fit_reduce h2)
  exact ⟨r, hr, by rw [(fit_lit h1).1]; rfl⟩

theorem fit_first {letter : Char → Bool} {K K' : Cls} {n : Text} {p : Option Char} {x q : Text} {c c' : Caps}
    (h : Fit letter (.group n (.seq (.cls K) (.star true (.cls K')))) p x q c c') : ∃ d y, x = d :: y ∧ K.has letter d = true := by
  obtain ⟨_, _, h⟩ := fit_group h
  obtain ⟨x1, x2, _, rfl, h1, h2⟩ := fit_seq h
  cases h1 with
  | cls hk => exact ⟨_, x2, rfl, hk⟩

theorem no_match {letter : Char → Bool} {e : Re} {p : Option Char} {t : Text} (h : ∀ x q c c', Fit letter e p x q c c' → t ≠ x ++ q) :
    matchAt letter e p t = none := by
  cases hm : matchAt letter e p t with
  | none => rfl
  | some n =>
    obtain ⟨x, q, hs, hf, _⟩ := matchAt_sound (n := n.1) (caps := n.2) hm
    exact absurd hs (h _ _ _ _ hf)

theorem fit_begins {letter : Char → Bool} {a b : Re} {p : Option Char} {x q : Text} {c c' : Caps}
    (h : Fit letter (.seq (.seq (.seq (lit '@') reduceRe) a) b) p x q c c') :
    ∃ r ∈ reduceSigns, ∃ p' c₁ c₂ y z, x = '@' :: (r.1 ++ (y ++ z)) ∧ Fit letter a p' y (z ++ q) c₁ c₂ := by
  obtain ⟨x1, x2, _, rfl, h1, h2⟩ := fit_seq h
  obtain ⟨x1, x3, _, rfl, h1, h3⟩ := fit_seq h1
  obtain ⟨r, hr, rfl⟩ := fit_signs h1
  exact ⟨r, hr, _, _, _, x3, x2, by simp, h3⟩

/-- The rule of global variables, and those of the names that can be assigned, do not take a local variable. -/
theorem not_local {letter : Char → Bool} (hl : PlainLetters letter) {e : Re} (he : e ∈ [nameRe,
      .seq (.seq (.seq (.seq (lit '@') reduceRe) (lit '.')) wideRe) endRe, .seq (.seq (.seq (lit '@') reduceRe) wideRe) endRe])
    {r : Text × Text × Text} (hr : r ∈ reduceSigns) (hu : '_' ∉ r.1) (x : Text) (p : Option Char) :
    matchAt letter e p ('@' :: (r.1 ++ '$' :: x)) = none := by
  have cls : ∀ {K : Cls}, (∀ c, K.has letter c = true → c ≠ '-' ∧ c ≠ '$') → ∀ {n : Text} {K' : Cls} {b : Re},
      matchAt letter (.seq (.seq (.seq (lit '@') reduceRe) (.group n (.seq (.cls K) (.star true (.cls K'))))) b) p ('@' :: (r.1 ++ '$' :: x)) = none := by
    intro K hK n K' b
    refine no_match (fun y q c c' hf => ?_)
    obtain ⟨r', hr', _, _, _, y, z, rfl, hy⟩ := fit_begins hf
    obtain ⟨d, y, rfl, hd⟩ := fit_first hy
    intro h
    simp only [List.cons_append, List.cons.injEq, true_and, List.append_assoc] at h
    exact local_first hr' hr hu (hK d hd) h
  have hdash : letter '-' = false := by
    rw [hl.1 _ (by decide)]
    decide
  have hdollar : letter '$' = false := by
    rw [hl.1 _ (by decide)]
    decide
  simp only [List.mem_cons, List.not_mem_nil, or_false] at he
  rcases he with rfl | rfl | rfl
  · refine cls (fun c hc => ⟨?_, ?_⟩) <;> (rintro rfl; simp [Cls.has, Item.has, hdash, hdollar] at hc)
  · refine no_match (fun y q c c' hf => ?_)
    obtain ⟨x1, x2, _, rfl, h1, _⟩ := fit_seq hf
    obtain ⟨r', hr', _, _, _, y, z, rfl, hy⟩ := fit_begins h1
    rw [(fit_lit hy).1]
    intro h
    simp only [List.cons_append, List.nil_append, List.cons.injEq, true_and, List.append_assoc] at h
    exact local_first hr' hr hu (by decide) h
  · refine cls (fun c hc => ⟨?_, ?_⟩) <;> (rintro rfl; simp [Cls.has, Item.has, hdash, hdollar] at hc)

/-- The expressions begin with the delimiter. -/
theorem begins_at {letter : Char → Bool} {e : Re} (he : (['@'].map some).isPrefixOf (pieces e) = true) (p : Option Char) (ch : Char) (t : Text)
    (h : ch ≠ '@') : matchAt letter e p (ch :: t) = none := by
  refine no_match (fun x q c c' hf hs => ?_)
  have hp := pieces_sound hf
  obtain ⟨l, hl⟩ := List.isPrefixOf_iff_prefix.mp he
  rw [← hl] at hp
  obtain ⟨y, rfl⟩ := follows_prefix hp
  simp only [List.cons_append, List.cons.injEq] at hs
  exact h hs.1

theorem expand_name (caps : Caps) : expand (groupOf caps) c!"{{${reduce1} $$.${name} ${reduce2}}}" =
    wordCode (c!"$." ++ groupOf caps c!"name") (groupOf caps c!"reduce1") (groupOf caps c!"reduce2") := by
  simp [expand, expandAux, Razor.groupName, nameChar, Text.hasPrefix, Text.dropPrefix?, wordCode]

theorem expand_local (caps : Caps) : expand (groupOf caps) c!"{{${reduce1} ${name} ${reduce2}}}" =
    wordCode (groupOf caps c!"name") (groupOf caps c!"reduce1") (groupOf caps c!"reduce2") := by
  simp [expand, expandAux, Razor.groupName, nameChar, Text.hasPrefix, Text.dropPrefix?, wordCode]

/-- A source, the text after the rule of global variables, and after the one of local variables. -/
inductive VarSteps (letter : Char → Bool) : Text → Text → Text → Prop
  | plain {a : Text} : '@' ∉ a → VarSteps letter a a a
  | global {a name w t t1 t2 : Text} {r : Text × Text × Text} : '@' ∉ a → r ∈ reduceSigns → VarName letter name → Ends letter (w ++ t) → Dropped w →
      (∀ u, PrefixLike t u → Remains (w ++ u) u) → VarSteps letter t t1 t2 →
      VarSteps letter (a ++ '@' :: (r.1 ++ name ++ (w ++ t))) (a ++ (wordCode (c!"$." ++ name) r.2.1 r.2.2 ++ t1))
        (a ++ (wordCode (c!"$." ++ name) r.2.1 r.2.2 ++ t2))
  | «local» {a name w t t1 t2 : Text} {r : Text × Text × Text} : '@' ∉ a → r ∈ reduceSigns → '_' ∉ r.1 → LocalName letter name → Ends letter (w ++ t) →
      Dropped w → (∀ u, PrefixLike t u → Remains (w ++ u) u) → VarSteps letter t t1 t2 →
      VarSteps letter (a ++ '@' :: (r.1 ++ name ++ (w ++ t))) (a ++ '@' :: (r.1 ++ name ++ (w ++ t1))) (a ++ (wordCode name r.2.1 r.2.2 ++ t2))

theorem variables_steps {letter : Char → Bool} {t t' : Text} (h : Variables letter t t') : ∃ t1, VarSteps letter t t1 t' := by
  induction h with
  | plain a ha => exact ⟨a, .plain ha⟩
  | var a v code b b' t' ha hc hn he _ hr _ ih =>
    obtain ⟨t1, ih⟩ := ih
    obtain ⟨w, hw, rfl, hw'⟩ := remains_dropped hr
    cases hn with
    | global r name hr hn => exact ⟨_, .global ha hr hn he hw hw' ih⟩
    | «local» r name hr hu hn => exact ⟨_, .local ha hr hu hn he hw hw' ih⟩

theorem varSteps_like {letter : Char → Bool} {t t1 t2 : Text} (h : VarSteps letter t t1 t2) : PrefixLike t t1 := by
  induction h with
  | plain _ => exact fun _ _ h => h
  | global =>
    rw [wordCode_brace]
    exact prefixLike_code _ _ _
  | @«local» a name w t t1 t2 r _ _ _ _ _ _ _ _ ih =>
    have := prefixLike_front (a ++ '@' :: (r.1 ++ name ++ w)) ih
    simpa using this

theorem kind_not {letter : Char → Bool} (hl : PlainLetters letter) {x : Text} (h : ∀ c ∈ x, (kindOf letter c).inToken = true) {c : Char}
    (hc : c ∈ c!"@\"{#/}") : c ∉ x := by
  intro hi
  have := h _ hi
  simp only [List.mem_cons, List.not_mem_nil, or_false] at hc
  rcases hc with rfl | rfl | rfl | rfl | rfl | rfl
  · cases this
  · have hq := hl.1 '"' (by decide)
    simp [kindOf, kinds, hq] at this
    cases this
  · have hq := hl.1 '{' (by decide)
    simp [kindOf, kinds, hq] at this
    cases this
  · cases this
  · cases this
  · have hq := hl.1 '}' (by decide)
    simp [kindOf, kinds, hq] at this
    cases this

theorem printed_not {letter : Char → Bool} (hl : PlainLetters letter) {v code : Text} (h : Printed letter v code) {c : Char} (hc : c ∈ c!"@\"{#/}") : c ∉ v :=
  kind_not hl (printed_kinds hl h) hc

/-- The rule of global variables. -/
theorem replaceRe_name {letter : Char → Bool} (hl : PlainLetters letter) {out : Text → Caps → Text}
    (hout : ∀ x caps, out x caps = wordCode (c!"$." ++ groupOf caps c!"name") (groupOf caps c!"reduce1") (groupOf caps c!"reduce2")) {t t1 t2 : Text}
    (h : VarSteps letter t t1 t2) : ∀ p, Regex.replaceAux letter nameRe out 0 p t = t1 := by
  have hst := begins_at (letter := letter) (e := nameRe) (by decide +kernel)
  induction h with
  | plain ha => exact replaceAux_plain hst _ ha
  | @global a name w t t1 t2 r ha hr hn he hw hrem _ ih =>
    intro p
    have := replaceAux_match (out := out) (x := r.1 ++ name ++ w) (q := t) (code := wordCode (c!"$." ++ name) r.2.1 r.2.2) hst ha (fun p => by
      obtain ⟨caps, h1, h2, h3, h4⟩ := matchAt_name hl hr hn he.next (hrem t (fun _ _ h => h)) p
      refine ⟨caps, ?_, fun m => by rw [hout, h2, h3, h4]⟩
      rw [List.append_assoc (r.1 ++ name), h1]
      simp
      omega) ih p
    simpa using this
  | @«local» a name w t t1 t2 r ha hr hu hn he hw _ _ ih =>
    intro p
    have hat := printed_not hl (.local r name hr hu hn) (c := '@') (by decide)
    have := replaceAux_over (out := out) (x := r.1 ++ name ++ w) (q := t) hst ha
      (by rw [List.mem_append, not_or]; exact ⟨hat, (drop_chars (dropped_chars hw)).1⟩) (fun p => by
        obtain ⟨x, rfl, _⟩ := hn
        have := not_local hl (e := nameRe) (by simp) hr hu (x ++ (w ++ t)) p
        simpa using this) ih p
    simpa using this

/-- The rules of the names that can be assigned, on what remains. -/
theorem replaceRe_wide {letter : Char → Bool} (hl : PlainLetters letter) {e : Re} (he : e ∈ ((table.drop 132).take 2).map (fun e => e.2.2.2))
    {out : Text → Caps → Text} {t t1 t2 : Text} (h : VarSteps letter t t1 t2) : ∀ p, Regex.replaceAux letter e out 0 p t1 = t1 := by
  have hst := begins_at (letter := letter) (e := e) (by revert e; decide +kernel)
  rw [wide_entry] at he
  induction h with
  | plain ha => exact replaceAux_plain hst _ ha
  | @global a name w t t1 t2 r ha hr hn _ _ _ _ ih =>
    intro p
    have hat : '@' ∉ name := fun hi => printed_not hl (.global r name hr hn) (c := '@') (by decide) (List.mem_append_right _ hi)
    have := replaceAux_before (out := out) hst (a ++ wordCode (c!"$." ++ name) r.2.1 r.2.2) t1
      (by rw [List.mem_append, not_or]; exact ⟨ha, wordCode_at hr (by simp [hat])⟩) p
    rw [ih] at this
    simpa using this
  | @«local» a name w t t1 t2 r ha hr hu hn _ hw _ _ ih =>
    intro p
    have hat := printed_not hl (.local r name hr hu hn) (c := '@') (by decide)
    have := replaceAux_over (out := out) (x := r.1 ++ name ++ w) (q := t1) hst ha
      (by rw [List.mem_append, not_or]; exact ⟨hat, (drop_chars (dropped_chars hw)).1⟩) (fun p => by
        obtain ⟨x, rfl, _⟩ := hn
        have := not_local hl (List.mem_cons_of_mem _ he) hr hu (x ++ (w ++ t1)) p
        simpa using this) ih p
    simpa using this

/-- The rule of local variables. -/
theorem replaceRe_local {letter : Char → Bool} (hl : PlainLetters letter) {out : Text → Caps → Text}
    (hout : ∀ x caps, out x caps = wordCode (groupOf caps c!"name") (groupOf caps c!"reduce1") (groupOf caps c!"reduce2")) {t t1 t2 : Text}
    (h : VarSteps letter t t1 t2) : ∀ p, Regex.replaceAux letter localRe out 0 p t1 = t2 := by
  have hst := begins_at (letter := letter) (e := localRe) (by decide +kernel)
  induction h with
  | plain ha => exact replaceAux_plain hst _ ha
  | @global a name w t t1 t2 r ha hr hn _ _ _ _ ih =>
    intro p
    have hat : '@' ∉ name := fun hi => printed_not hl (.global r name hr hn) (c := '@') (by decide) (List.mem_append_right _ hi)
    have := replaceAux_before (out := out) hst (a ++ wordCode (c!"$." ++ name) r.2.1 r.2.2) t1
      (by rw [List.mem_append, not_or]; exact ⟨ha, wordCode_at hr (by simp [hat])⟩) p
    rw [ih] at this
    simpa using this
  | @«local» a name w t t1 t2 r ha hr hu hn he hw hrem hv ih =>
    intro p
    have hp := varSteps_like hv
    have := replaceAux_match (out := out) (x := r.1 ++ name ++ w) (q := t1) (code := wordCode name r.2.1 r.2.2) hst ha (fun p => by
      obtain ⟨caps, h1, h2, h3, h4⟩ := matchAt_local hr hn (ends_like hl (prefixLike_front w hp) he).next (hrem t1 hp) p
      refine ⟨caps, ?_, fun m => by rw [hout, h2, h3, h4]⟩
      rw [List.append_assoc (r.1 ++ name), h1]
      simp
      omega) ih p
    simpa using this

theorem remains_suffix {b b' : Text} (hr : Remains b b') : ∃ w, b = w ++ b' := by
  rcases hr with ⟨w, _, h⟩ | ⟨h, _⟩
  · exact ⟨w ++ [';'], by simp [h]⟩
  · exact ⟨[], by simp [h]⟩

/-! ## The other rules -/

theorem blank_kind {c : Char} (h : isBlank c = true) : c ≠ '@' ∧ c ≠ ';' := by
  constructor <;> (rintro rfl; revert h; decide)

/-- A semicolon does not end a comment. -/
theorem notCommented_semicolon {w a : Text} (h : NotCommented a) : NotCommented (w ++ ';' :: a) := by
  intro u m v hm hv he
  have hmv : ';' ∉ m ++ v := by
    have : ∀ m ∈ commentSigns, ';' ∉ m := by decide
    intro hi
    rcases List.mem_append.mp hi with hi | hi
    · exact this m hm hi
    · exact (blank_kind (hv _ hi)).2 rfl
  rcases List.append_eq_append_iff.mp he with ⟨x, h1, h2⟩ | ⟨x, h1, h2⟩
  · cases x with
    | nil =>
      rw [List.nil_append] at h2
      exact hmv (by rw [← h2]; simp)
    | cons d x =>
      simp only [List.cons_append, List.cons.injEq] at h2
      exact h x m v hm hv h2.2
  · exact hmv (by rw [h2]; simp)

theorem source_remains {letter : Char → Bool} {b b' : Text} (hr : Remains b b') (h : Source letter b') : Source letter b := by
  rcases hr with ⟨w, hw, rfl⟩ | ⟨rfl, _⟩
  · have hat : '@' ∉ w := fun hi => (blank_kind (hw _ hi)).1 rfl
    cases h with
    | plain ha => exact .plain (by simp [hat, ha])
    | @var a v code rest ha hc hn he hh hs =>
      have := Source.var (a := w ++ ';' :: a) (by simp [hat, ha]) (notCommented_semicolon hc) hn he hh hs
      simpa using this
  · exact h

theorem variables_source {letter : Char → Bool} {t t' : Text} (h : Variables letter t t') : Source letter t := by
  induction h with
  | plain a ha => exact .plain ha
  | var a v code b b' t' ha hc hn he hh hr _ ih => exact .var ha hc hn he hh (source_remains hr ih)

theorem rules_before {letter : Char → Bool} (hl : PlainLetters letter) (parser : Replacement → Text → Text) {t : Text} (h : Source letter t)
    (hs : NoOtherSign t) : (((generate defaultDelims).drop 2).take 129).foldl (applyRule letter parser) t = t := by
  refine foldl_idle parser _ (fun r hr => ?_)
  obtain ⟨e, hmem, hcomp⟩ := rules_compiled 2 129 r hr
  have := table_bad e hmem
  simp only [Bool.or_eq_true] at this
  rcases this with ((h' | h') | h') | h'
  · exact rule_idle parser hcomp h' (hs _ (by decide))
  · exact rule_idle parser hcomp h' (hs _ (by decide))
  · exact rule_idle parser hcomp h' (hs _ (by decide))
  · rw [applyRule_compiled hcomp]
    exact replaceRe_none (fun p x q caps hfit _ hx => not_bad hl h hx (leadsToBad_sound hl hfit h'))

theorem rule_name {letter : Char → Bool} (hl : PlainLetters letter) (parser : Replacement → Text → Text) {t t' : Text} (h : Variables letter t t') :
    ((((generate defaultDelims).drop 131).take 4).foldl (applyRule letter parser) t) = t' := by
  obtain ⟨t1, h⟩ := variables_steps h
  have hsplit : ((generate defaultDelims).drop 131).take 4 =
      ((generate defaultDelims).drop 131).take 1 ++ (((generate defaultDelims).drop 132).take 2 ++ ((generate defaultDelims).drop 134).take 1) := by
    rw [show 4 = 1 + (2 + 1) from rfl, List.take_add, List.take_add, List.drop_drop, List.drop_drop]
  rw [hsplit, List.foldl_append, List.foldl_append, rule_one parser name_entry (fun _ ho => replaceRe_name hl (fun x caps => by rw [ho, expand_name]) h),
    foldl_idle parser (s := t1) (((generate defaultDelims).drop 132).take 2) (fun r hr => ?_),
    rule_one parser local_entry (fun _ ho => replaceRe_local hl (fun x caps => by rw [ho, expand_local]) h)]
  obtain ⟨e, hmem, hcomp⟩ := rules_compiled 132 2 r hr
  rw [applyRule_compiled hcomp]
  exact replaceRe_wide hl (List.mem_map.mpr ⟨e, hmem, rfl⟩) h none

/-! ## After the replacement -/

/-- A factor without the characters of the code is in one of the other parts. -/
theorem infix_code {f a word b : Text} {r : Text × Text × Text} (hr : r ∈ reduceSigns) (hf : ∀ c ∈ c!"{ $.}-", c ∉ f) (hne : f ≠ [])
    (h : f <:+: a ++ (wordCode word r.2.1 r.2.2 ++ b)) : f <:+: a ∨ f <:+: word ∨ f <:+: b := by
  have h0 : ∀ {x : Text} {c : Char}, c ∈ c!"{ $.}-" → f <:+: c :: x → f <:+: x := by
    intro x c hc h
    rcases infix_glue (a := []) (hf c hc) h with h | h
    · exact absurd (List.infix_nil.mp h) hne
    · exact h
  have hs : ∀ {x y : Text}, x = [] ∨ x = c!"-" → f <:+: x ++ y → f <:+: y := by
    rintro x y (rfl | rfl) h
    · exact h
    · exact h0 (by decide) h
  have hr' : ∀ r ∈ reduceSigns, (r.2.1 = [] ∨ r.2.1 = c!"-") ∧ (r.2.2 = [] ∨ r.2.2 = c!"-") := by decide
  have h1 : a ++ (wordCode word r.2.1 r.2.2 ++ b) = a ++ '{' :: '{' :: (r.2.1 ++ ' ' :: (word ++ ' ' :: (r.2.2 ++ '}' :: '}' :: b))) := by simp [wordCode]
  rw [h1] at h
  rcases infix_glue (hf '{' (by decide)) h with h | h
  · exact .inl h
  · have h := h0 (by decide) (hs (hr' r hr).1 (h0 (by decide) h))
    rcases infix_glue (hf ' ' (by decide)) h with h | h
    · exact .inr (.inl h)
    · exact .inr (.inr (h0 (by decide) (h0 (by decide) (hs (hr' r hr).2 h))))

theorem infix_printed {letter : Char → Bool} {f a v code b : Text} (hv : Printed letter v code) (hf : ∀ c ∈ c!"{ $.}-", c ∉ f) (hne : f ≠ [])
    (h : f <:+: a ++ (code ++ b)) : f <:+: a ∨ f <:+: v ∨ f <:+: b := by
  cases hv with
  | global r name hr hn =>
    rcases infix_code hr hf hne h with h | h | h
    · exact .inl h
    · rcases infix_glue (a := ['$']) (b := name) (c := '.') (hf '.' (by decide)) h with h | h
      · exact .inl (h.trans (by
          obtain ⟨u, w, hu⟩ := h
          exfalso
          cases f with
          | nil => exact hne rfl
          | cons c f =>
            have : c ∈ ['$'] := by
              rw [← hu]
              simp
            exact hf '$' (by decide) (by rw [List.mem_singleton.mp this]; simp)))
      · exact .inr (.inl (h.trans ⟨r.1, [], by simp⟩))
    · exact .inr (.inr h)
  | «local» r name hr hu hn =>
    rcases infix_code hr hf hne h with h | h | h
    · exact .inl h
    · exact .inr (.inl (h.trans ⟨r.1, [], by simp⟩))
    · exact .inr (.inr h)

/-- The beginning of a raw content, as an automaton: `"{{`, then either a brace, ` $` or `- $`. -/
inductive RawSt
  | q0 | q1 | q2 | q3 | q4 | q5 | fine | bad
  deriving DecidableEq

def rawNext : RawSt → Char → RawSt
  | .q0, c => if c = '"' then .q1 else .bad
  | .q1, c => if c = '{' then .q2 else .bad
  | .q2, c => if c = '{' then .q3 else .bad
  | .q3, c => if c = '{' then .fine else if c = ' ' then .q4 else if c = '-' then .q5 else .bad
  | .q5, c => if c = ' ' then .q4 else .bad
  | .q4, c => if c = '$' then .fine else .bad
  | .fine, _ => .fine
  | .bad, _ => .bad

/-- The states after a character of a class. -/
def rawStep (k : Cls) (S : List RawSt) : List RawSt :=
  match single k with
  | some c => S.map (fun s => rawNext s c)
  | none => S.flatMap (fun s => ['"', '{', ' ', '$', '-', 'x'].map (rawNext s))

theorem rawStep_sound {letter : Char → Bool} (k : Cls) (c : Char) (s : RawSt) (S : List RawSt) (hk : k.has letter c = true) (hs : s ∈ S) :
    rawNext s c ∈ rawStep k S := by
  unfold rawStep
  split
  · rename_i d hd
    rw [single_some hd hk]
    exact List.mem_map.mpr ⟨s, hs, rfl⟩
  · refine List.mem_flatMap.mpr ⟨s, hs, List.mem_map.mpr ?_⟩
    cases s <;> simp only [rawNext] <;> (repeat' split) <;>
      first | exact ⟨'"', by decide, rfl⟩ | exact ⟨'{', by decide, rfl⟩ | exact ⟨' ', by decide, rfl⟩ | exact ⟨'$', by decide, rfl⟩ | exact ⟨'-', by decide, rfl⟩ |
        exact ⟨'x', by decide, rfl⟩ | exact ⟨'x', by decide, trivial⟩

def allRaw : List RawSt := [.q0, .q1, .q2, .q3, .q4, .q5, .fine, .bad]

/-- The expression of raw contents cannot match the code of a variable. -/
theorem raw_table : ∀ e ∈ (table.drop 159).take 1, (post allRaw rawStep e.2.2.2 [.q0]).all (fun s => s == .bad) = true ∧
    (c!"\"{{".map some).isPrefixOf (pieces e.2.2.2) = true := by
  decide +kernel

/-- The code of a variable. -/
def RawFine (code : Text) : Prop := '"' ∉ code ∧ ∃ x z, (x = [] ∨ x = c!"-") ∧ code = '{' :: '{' :: (x ++ ' ' :: '$' :: z)

theorem printed_fine {letter : Char → Bool} (hl : PlainLetters letter) {v code : Text} (h : Printed letter v code) : RawFine code := by
  have hq := printed_not hl h (c := '"') (by decide)
  have hr' : ∀ r ∈ reduceSigns, (r.2.1 = [] ∨ r.2.1 = c!"-") ∧ '"' ∉ r.2.1 ∧ '"' ∉ r.2.2 := by decide
  cases h with
  | global r name hr hn =>
    obtain ⟨h1, h2, h3⟩ := hr' r hr
    rw [List.mem_append, not_or] at hq
    refine ⟨by simp [wordCode, h2, h3, hq.2], r.2.1, '.' :: (name ++ ' ' :: (r.2.2 ++ c!"}}")), h1, by simp [wordCode]⟩
  | «local» r name hr hu hn =>
    obtain ⟨h1, h2, h3⟩ := hr' r hr
    rw [List.mem_append, not_or] at hq
    obtain ⟨t, rfl, _⟩ := hn
    rw [List.mem_cons, not_or] at hq
    refine ⟨by simp [wordCode, h2, h3, hq.2.2], r.2.1, t ++ ' ' :: (r.2.2 ++ c!"}}"), h1, by simp [wordCode]⟩

theorem fine_stays (z : Text) : z.foldl rawNext .fine = .fine := by
  induction z with
  | nil => rfl
  | cons c z ih => exact ih

/-- What follows the two braces of the code. -/
theorem raw_code {x z y v : Text} (hx : x = [] ∨ x = c!"-") (h : y ++ v = x ++ ' ' :: '$' :: z) : y.foldl rawNext .q3 ≠ .bad := by
  have dollar : ∀ {y : Text}, y ++ v = ' ' :: '$' :: z → y.foldl rawNext .q3 ≠ .bad ∧ y.foldl rawNext .q5 ≠ .bad := by
    intro y h
    cases y with
    | nil => decide
    | cons c y =>
      simp only [List.cons_append, List.cons.injEq] at h
      obtain ⟨rfl, h⟩ := h
      cases y with
      | nil => decide
      | cons c y =>
        simp only [List.cons_append, List.cons.injEq] at h
        obtain ⟨rfl, h⟩ := h
        have h1 : (' ' :: '$' :: y).foldl rawNext .q3 = y.foldl rawNext .fine := rfl
        have h2 : (' ' :: '$' :: y).foldl rawNext .q5 = y.foldl rawNext .fine := rfl
        rw [h1, h2, fine_stays]
        decide
  rcases hx with rfl | rfl
  · exact (dollar h).1
  · cases y with
    | nil => decide
    | cons c y =>
      simp only [List.cons_append, List.nil_append, List.cons.injEq] at h
      obtain ⟨rfl, h⟩ := h
      exact (dollar h).2

theorem raw_idle {a code b y : Text} (hcode : RawFine code) (ha : ¬ c!"\"{{" <:+: a)
    (hb : ∀ y, '"' :: '{' :: '{' :: y <:+: b → ('"' :: '{' :: '{' :: y).foldl rawNext .q0 ≠ .bad)
    (h : '"' :: '{' :: '{' :: y <:+: a ++ (code ++ b)) : ('"' :: '{' :: '{' :: y).foldl rawNext .q0 ≠ .bad := by
  obtain ⟨hm, x, z, hx, rfl⟩ := hcode
  obtain ⟨u, v, huv⟩ := h
  have huv' : u ++ '"' :: '{' :: '{' :: (y ++ v) = a ++ (('{' :: '{' :: (x ++ ' ' :: '$' :: z)) ++ b) := by
    rw [← huv]
    simp
  have hq3 : ('"' :: '{' :: '{' :: y).foldl rawNext .q0 = y.foldl rawNext .q3 := rfl
  rcases List.append_eq_append_iff.mp huv' with ⟨a', h1, h2⟩ | ⟨a', h1, h2⟩
  · cases a' with
    | nil => simp at h2
    | cons d a' =>
      simp only [List.cons_append, List.cons.injEq] at h2
      obtain ⟨rfl, h2⟩ := h2
      cases a' with
      | nil =>
        simp only [List.nil_append, List.cons_append, List.cons.injEq, true_and] at h2
        rw [hq3]
        exact raw_code hx (z := z ++ b) (by simpa using h2)
      | cons d a' =>
        simp only [List.cons_append, List.cons.injEq] at h2
        obtain ⟨rfl, h2⟩ := h2
        cases a' with
        | nil =>
          simp only [List.nil_append, List.cons_append, List.cons.injEq, true_and] at h2
          cases y with
          | nil => decide
          | cons c y =>
            simp only [List.cons_append, List.cons.injEq] at h2
            obtain ⟨rfl, h2⟩ := h2
            have : ('"' :: '{' :: '{' :: '{' :: y).foldl rawNext .q0 = y.foldl rawNext .fine := rfl
            rw [this, fine_stays]
            decide
        | cons d a' =>
          simp only [List.cons_append, List.cons.injEq] at h2
          obtain ⟨rfl, h2⟩ := h2
          exact absurd ⟨u, a', by rw [h1]; simp⟩ ha
  · rcases List.append_eq_append_iff.mp h2 with ⟨b', h3, h4⟩ | ⟨b', h3, h4⟩
    · exact hb y ⟨b', v, by rw [h4]; simp⟩
    · cases b' with
      | nil =>
        rw [List.nil_append] at h4
        exact hb y ⟨[], v, by rw [← h4]; simp⟩
      | cons d b' =>
        simp only [List.cons_append, List.cons.injEq] at h4
        exact absurd (by rw [h3, ← h4.1]; simp) hm

/-- What there is of the other signs after the replacement was there before. -/
theorem variables_infix {letter : Char → Bool} {f t t' : Text} (hf : ∀ c ∈ c!"{ $.}-", c ∉ f) (hne : f ≠ []) (h : Variables letter t t') :
    f <:+: t' → f <:+: t := by
  induction h with
  | plain a ha => exact id
  | var a v code b b' t' ha hc hn he hh hr _ ih =>
    intro h
    obtain ⟨w, rfl⟩ := remains_suffix hr
    rcases infix_printed hn hf hne h with h | h | h
    · exact h.trans ⟨[], '@' :: (v ++ (w ++ b')), by simp⟩
    · exact h.trans ⟨a ++ ['@'], w ++ b', by simp⟩
    · exact (ih h).trans ⟨a ++ '@' :: (v ++ w), [], by simp⟩

theorem printed_code_at {letter : Char → Bool} (hl : PlainLetters letter) {v code : Text} (h : Printed letter v code) : '@' ∉ code := by
  have hq := printed_not hl h (c := '@') (by decide)
  cases h with
  | global r name hr hn =>
    rw [List.mem_append, not_or] at hq
    exact wordCode_at hr (by simp [hq.2])
  | «local» r name hr hu hn =>
    rw [List.mem_append, not_or] at hq
    exact wordCode_at hr hq.2

theorem variables_at {letter : Char → Bool} (hl : PlainLetters letter) {t t' : Text} (h : Variables letter t t') : '@' ∉ t' := by
  induction h with
  | plain a ha => exact ha
  | var a v code b b' t' ha hc hn he hh hr _ ih =>
    have := printed_code_at hl hn
    simp [ha, ih, this]

/-- What the rules after the one of variables look for. -/
def laterSigns : List Text := [c!"`", c!"\"<<", c!"\"{{", c!"_=!", c!"__FuncCall__"]

def NoLater (t : Text) : Prop := ∀ f ∈ laterSigns, ¬ f <:+: t

theorem noLater_of {t : Text} (h : NoOtherSign t) : NoLater t := by
  have : ∀ f ∈ laterSigns, f ∈ otherSigns := by decide
  exact fun f hf => h f (this f hf)

theorem variables_raw {letter : Char → Bool} (hl : PlainLetters letter) {t t' : Text} (h : Variables letter t t') (hs : NoLater t) :
    ∀ y, '"' :: '{' :: '{' :: y <:+: t' → ('"' :: '{' :: '{' :: y).foldl rawNext .q0 ≠ .bad := by
  induction h with
  | plain a ha =>
    rintro y ⟨u, v, h⟩
    exact absurd ⟨u, y ++ v, by rw [← h]; simp⟩ (hs c!"\"{{" (by decide))
  | var a v code b b' t' ha hc hn he hh hr _ ih =>
    obtain ⟨w, rfl⟩ := remains_suffix hr
    intro y hy
    refine raw_idle (printed_fine hl hn) (fun hi => hs c!"\"{{" (by decide) (hi.trans ⟨[], '@' :: (v ++ (w ++ b')), by simp⟩)) (ih ?_) hy
    exact fun f hf hi => hs f hf (hi.trans ⟨a ++ '@' :: (v ++ w), [], by simp⟩)

theorem rules_after {letter : Char → Bool} (hl : PlainLetters letter) (parser : Replacement → Text → Text) {s t : Text} (h : Variables letter s t)
    (hs : NoLater s) : Text.replaceAll callMark [] (((generate defaultDelims).drop 135).foldl (applyRule letter parser) t) = t := by
  have hat := variables_at hl h
  have hno : ∀ f, (∀ c ∈ c!"{ $.}-", c ∉ f) → f ∈ laterSigns → f ≠ [] → ¬ f <:+: t :=
    fun f hf hm hne hi => hs f hm (variables_infix hf hne h hi)
  rw [split_rules 135 24, rules_idle parser 135 24 [['@']] (by decide +kernel)]
  · rw [split_rules 159 1]
    have hraw : ∀ r ∈ ((generate defaultDelims).drop 159).take 1, applyRule letter parser t r = t := by
      intro r hr
      obtain ⟨e, he, hc⟩ := rules_compiled 159 1 r hr
      obtain ⟨hp, hq⟩ := raw_table e he
      rw [applyRule_compiled hc]
      refine replaceRe_none (fun p x q caps hf _ hx => ?_)
      have hpost := post_sound (all := allRaw) (fun s => by cases s <;> decide) (step := rawStep) (δ := rawNext) rawStep_sound hf
        (List.mem_singleton.mpr rfl : RawSt.q0 ∈ [RawSt.q0])
      have hbad := eq_of_beq (List.all_eq_true.mp hp _ hpost)
      obtain ⟨l, hl'⟩ := List.isPrefixOf_iff_prefix.mp hq
      have hfollow := pieces_sound hf
      rw [← hl'] at hfollow
      obtain ⟨y, hy⟩ := follows_prefix hfollow
      have hy' : x = '"' :: '{' :: '{' :: y := hy.symm
      rw [hy'] at hx hbad
      exact variables_raw hl h hs y hx hbad
    rw [foldl_idle parser _ hraw]
    have : (generate defaultDelims).drop (159 + 1) = ((generate defaultDelims).drop 160).take 5 := by
      rw [List.take_of_length_le]
      simp [generate_length]
    rw [this, rules_idle parser 160 5 [c!"\"<<", c!"_=!", c!"`"] (by decide +kernel)]
    · refine Text.replaceAll_of_not_contains ?_
      rw [Bool.eq_false_iff]
      exact fun hc => hno callMark (by decide) (by decide) (by decide) (Text.contains_iff.mp hc)
    · intro f hf
      simp only [List.mem_cons, List.not_mem_nil, or_false] at hf
      rcases hf with rfl | rfl | rfl <;> exact hno _ (by decide) (by decide) (by decide)
  · intro f hf
    rw [List.mem_singleton.mp hf]
    exact fun hi => hat (hi.subset (List.mem_singleton.mpr rfl))

end Verif.Lemmas
