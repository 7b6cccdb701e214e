import Verif.Lemmas.RazorParenAuto
/-!
# The matches of the expressions between parentheses in razor
-/

namespace Verif.Lemmas
open Verif Regex Spec Engine Razor Table

def blankRe : Re := .star true (.cls ⟨false, [.blank]⟩)

def openRe : Re := .seq (.seq (.seq (lit '@') reduceRe) (lit '(')) blankRe

/-- A name with its fields between parentheses. -/
def varRe : Re :=
  .seq (.seq (.seq (.seq openRe (.group c!"expr" (.seq (.cls ⟨false, [.letter, .chr '_']⟩) (.star true (.cls ⟨false, [.letter, .digit, .chr '_', .chr '.']⟩)))))
    blankRe) (lit ')')) endRe

def lineCls : Cls := ⟨true, [.chr '\n']⟩

def assignRe : Re := .group c!"assign" (.seq (.seq (.seq (.star false (.cls lineCls)) (lit ':')) (lit '=')) (.opt true (lit ' ')))

/-- Any expression between parentheses, made of the characters of a class. -/
def classRe (K : Cls) : Re :=
  .seq (.seq (.seq (.seq (.seq (.seq openRe (.opt true assignRe)) blankRe) (.group c!"expr" (.seq (.cls K) (.star true (.cls K))))) blankRe) (lit ')')) endRe

/-- On its line. -/
def exprRe : Re := classRe lineCls

def atCls : Cls := ⟨true, [.chr '@', .chr '\n']⟩

/-- On its line, before another delimiter. -/
def atRe : Re := classRe atCls

theorem var_entry : (table.drop 142).take 1 = [(c!"Expression @(var)", c!"{{${reduce1} ${expr} ${reduce2}}}", 1, varRe)] := by
  rfl

theorem expr_entry : (table.drop 150).take 1 = [(c!"Expression @(expr)", c!"{{${reduce1} ${assign}${expr} ${reduce2}}}", 1, exprRe)] := by
  rfl

theorem at_entry : (table.drop 151).take 1 = [(c!"Expression @(expr)", c!"{{${reduce1} ${assign}${expr} ${reduce2}}}", 1, atRe)] := by
  rfl

/-! ## A repetition that gives back what it took -/

theorem starLoop_none {β : Type} {letter : Char → Bool} {K : Cls} {k : Cont β} {c : Caps} : ∀ {v : Text},
    (∀ v1 v2, v = v1 ++ v2 → (∀ ch ∈ v1, K.has letter ch = true) → ∀ p, k p v2 c = none) →
    ∀ (n : Nat) (p : Option Char), starLoop (fun p s c k => run letter (.cls K) p s c k) true n p v c k = none := by
  intro v
  induction v with
  | nil =>
    intro h n p
    cases n with
    | zero => exact h [] [] rfl (by simp) p
    | succ n =>
      unfold starLoop
      rw [if_pos rfl, h [] [] rfl (by simp) p]
      rfl
  | cons ch v ih =>
    intro h n p
    cases n with
    | zero => exact h [] _ rfl (by simp) p
    | succ n =>
      unfold starLoop
      rw [if_pos rfl, h [] _ rfl (by simp) p, Option.or_none]
      simp only [run, oneChar]
      split
      · rename_i hc
        split
        · refine ih (fun v1 v2 hv h1 => h (ch :: v1) v2 (by rw [hv]; rfl) ?_) n (some ch)
          intro d hd
          rcases List.mem_cons.mp hd with rfl | hd
          · exact hc
          · exact h1 d hd
        · rfl
      · rfl

/-- A greedy repetition of a class gives back what the rest does not agree with. -/
theorem starLoop_back {β : Type} {letter : Char → Bool} {K : Cls} {k : Cont β} {v : Text} {c : Caps} {r : β}
    (hv : ∀ v1 v2, v = v1 ++ v2 → v1 ≠ [] → (∀ ch ∈ v1, K.has letter ch = true) → ∀ p, k p v2 c = none) :
    ∀ (u : Text) (n : Nat) (p : Option Char), (u ++ v).length ≤ n → (∀ ch ∈ u, K.has letter ch = true) → k (lastOr p u) v c = some r →
      starLoop (fun p s c k => run letter (.cls K) p s c k) true n p (u ++ v) c k = some r := by
  intro u
  induction u with
  | nil =>
    intro n p _ _ hk
    cases n with
    | zero => exact hk
    | succ n =>
      unfold starLoop
      rw [if_pos rfl]
      have : (run letter (.cls K) p ([] ++ v) c fun p' s' c' => if s'.length < ([] ++ v).length then
          starLoop (fun p s c k => run letter (.cls K) p s c k) true n p' s' c' k else none) = none := by
        cases v with
        | nil => rfl
        | cons ch t =>
          simp only [List.nil_append, run, oneChar]
          split
          · rename_i hc
            split
            · refine starLoop_none (fun v1 v2 hv' h1 => hv (ch :: v1) v2 (by rw [hv']; rfl) (by simp) ?_) n (some ch)
              intro d hd
              rcases List.mem_cons.mp hd with rfl | hd
              · exact hc
              · exact h1 d hd
            · rfl
          · rfl
      rw [this]
      exact hk
  | cons ch u ih =>
    intro n p hn hu hk
    cases n with
    | zero => simp at hn
    | succ n =>
      unfold starLoop
      rw [if_pos rfl]
      rw [List.cons_append, run_cls_cons (hu ch (List.mem_cons_self ..)), if_pos (by simp)]
      have h1 : k (lastOr (some ch) u) v c = some r := by
        rw [← lastOr_single p ch, lastOr_append]
        exact hk
      have := ih n (some ch) (by simpa using hn) (fun d hd => hu d (List.mem_cons_of_mem _ hd)) h1
      rw [this]
      rfl

theorem run_star_back {β : Type} {letter : Char → Bool} {K : Cls} {k : Cont β} {u v : Text} {p : Option Char} {c : Caps} {r : β}
    (hu : ∀ ch ∈ u, K.has letter ch = true) (hv : ∀ v1 v2, v = v1 ++ v2 → v1 ≠ [] → (∀ ch ∈ v1, K.has letter ch = true) → ∀ p, k p v2 c = none)
    (hk : k (lastOr p u) v c = some r) : run letter (.star true (.cls K)) p (u ++ v) c k = some r :=
  starLoop_back hv u _ p (Nat.le_refl _) hu hk

theorem has_line (letter : Char → Bool) (ch : Char) : lineCls.has letter ch = true ↔ ch ≠ '\n' := by
  simp [lineCls, Cls.has, Item.has]

theorem has_at (letter : Char → Bool) (ch : Char) : atCls.has letter ch = true ↔ ch ≠ '@' ∧ ch ≠ '\n' := by
  simp [atCls, Cls.has, Item.has]

/-! ## The matches -/

/-- A name with its fields. -/
def SelName (letter : Char → Bool) (s : Text) : Prop := ∃ c t, s = c :: t ∧ (letter c = true ∨ c = '_') ∧ ∀ d ∈ t, varChar letter d = true ∨ d = '.'

theorem run_blanks {β : Type} {letter : Char → Bool} {k : Cont β} {w v : Text} {p : Option Char} {c : Caps} {r : β} (hw : ∀ d ∈ w, isBlank d = true)
    (hv : ∀ d, v.head? = some d → isBlank d = false) (hk : ∀ p, k p v c = some r) : run letter blankRe p (w ++ v) c k = some r :=
  run_star_cls (fun d hd => by rw [has_blank]; exact hw d hd) (fun d hd => by rw [has_blank]; exact hv d hd) (hk _)

/-- The end: blanks, a parenthesis, and what is dropped. -/
theorem run_close {β : Type} {letter : Char → Bool} {k : Cont β} {b b' : Text} {p : Option Char} {c : Caps} {r : β} (hr : Remains b b')
    (hk : ∀ p, k p b' c = some r) :
    (run letter blankRe p (')' :: b) c fun p s c => run letter (lit ')') p s c fun p s c => run letter endRe p s c k) = some r := by
  refine run_blanks (w := []) (by simp) (by rintro _ ⟨⟩; rfl) (fun p => ?_)
  rw [run_lit_cons]
  exact run_endRe hr hk

theorem take_here (x y : Text) : (x ++ y).take ((x ++ y).length - y.length) = x := by
  rw [show (x ++ y).length - y.length = x.length by simp]
  exact List.take_left

theorem blank_word {letter : Char → Bool} (hl : PlainLetters letter) {c : Char} (h : letter c = true ∨ c = '_') : isBlank c = false := by
  cases hb : isBlank c with
  | false => rfl
  | true =>
    exfalso
    simp only [isBlank, Bool.or_eq_true, beq_iff_eq] at hb
    rcases h with h | rfl
    · rcases hb with rfl | rfl <;> (rw [hl.1 _ (by decide)] at h; revert h; decide)
    · rcases hb with h | h <;> exact absurd h (by decide)

theorem matchAt_var {letter : Char → Bool} (hl : PlainLetters letter) {r : Text × Text × Text} (hr : r ∈ reduceSigns) {w s b b' : Text}
    (hw : ∀ d ∈ w, isBlank d = true) (hs : SelName letter s) (hrem : Remains b b') (p : Option Char) :
    ∃ caps, matchAt letter varRe p ('@' :: (r.1 ++ '(' :: (w ++ (s ++ ')' :: b)))) = some (('@' :: (r.1 ++ '(' :: (w ++ (s ++ ')' :: b)))).length - b'.length, caps) ∧
      groupOf caps c!"expr" = s ∧ groupOf caps c!"reduce1" = r.2.1 ∧ groupOf caps c!"reduce2" = r.2.2 := by
  obtain ⟨c₀, t, rfl, hc, ht⟩ := hs
  obtain ⟨d, h1, h2, hrun⟩ := run_reduce hr
  refine ⟨(c!"expr", c₀ :: t) :: d, ?_, ?_, ?_, ?_⟩
  · unfold matchAt varRe openRe
    simp only [run_seq_eq, run_lit_cons]
    refine hrun letter _ _ _ _ _ (by decide) (by decide) (fun p' => ?_)
    rw [run_lit_cons]
    refine run_blanks hw (by rintro _ ⟨⟩; exact blank_word hl hc) (fun p => ?_)
    rw [run_group_eq, run_seq_eq, List.cons_append, run_cls_cons (by simp [Cls.has, Item.has, hc])]
    refine run_star_cls ?_ ?_ ?_
    · intro ch h
      simp only [Cls.has, Item.has, List.any_cons, List.any_nil, bne_iff_ne, ne_eq, Bool.not_eq_false, Bool.or_eq_true, beq_iff_eq]
      rcases ht ch h with h | rfl
      · simp only [varChar, Bool.or_eq_true, beq_iff_eq] at h
        rcases h with (h | h) | h <;> simp [h]
      · simp
    · rintro _ ⟨⟩
      have : letter ')' = false := by
        rw [hl.1 _ (by decide)]
        decide
      simp [Cls.has, Item.has, this]
    · refine run_close hrem (fun _ => ?_)
      have := take_here (c₀ :: t) (')' :: b)
      rw [List.cons_append] at this
      rw [this]
  · simp [groupOf]
  · rw [← h1]
    simp [groupOf]
  · rw [← h2]
    simp [groupOf]

/-- Blanks, a name, blanks and a parenthesis are not what the text begins with. -/
def NotSel (letter : Char → Bool) (s : Text) : Prop := ∀ n w e, SelName letter n → (∀ d ∈ w, isBlank d = true) → s ++ [')'] ≠ n ++ (w ++ ')' :: e)

theorem signs_same {r r' : Text × Text × Text} (hr : r ∈ reduceSigns) (hr' : r' ∈ reduceSigns) {x y : Text} (h : r.1 ++ '(' :: x = r'.1 ++ '(' :: y) : x = y := by
  simp only [reduceSigns, List.mem_cons, List.not_mem_nil, or_false] at hr hr'
  rcases hr with rfl | rfl | rfl | rfl | rfl <;> rcases hr' with rfl | rfl | rfl | rfl | rfl <;> simp_all

theorem blanks_same {w w' x y : Text} (hw : ∀ d ∈ w, isBlank d = true) (hw' : ∀ d ∈ w', isBlank d = true) (hx : ∀ d, x.head? = some d → isBlank d = false)
    (hy : ∀ d, y.head? = some d → isBlank d = false) (h : w ++ x = w' ++ y) : x = y := by
  induction w generalizing w' with
  | nil =>
    cases w' with
    | nil => exact h
    | cons d w' =>
      rw [List.nil_append] at h
      have := hx d (by rw [h]; rfl)
      rw [hw' d (List.mem_cons_self ..)] at this
      cases this
  | cons c w ih =>
    cases w' with
    | nil =>
      rw [List.nil_append] at h
      have := hy c (by rw [← h]; rfl)
      rw [hw c (List.mem_cons_self ..)] at this
      cases this
    | cons d w' =>
      simp only [List.cons_append, List.cons.injEq] at h
      exact ih (fun d hd => hw d (List.mem_cons_of_mem _ hd)) (fun d hd => hw' d (List.mem_cons_of_mem _ hd)) h.2

theorem par_not_sel {letter : Char → Bool} (hl : PlainLetters letter) {n : Text} (hn : SelName letter n) : ')' ∉ n := by
  have hp : letter ')' = false := by
    rw [hl.1 _ (by decide)]
    decide
  obtain ⟨c, t, rfl, hc, ht⟩ := hn
  intro h
  rcases List.mem_cons.mp h with rfl | h
  · rcases hc with hc | hc
    · rw [hp] at hc
      cases hc
    · exact absurd hc (by decide)
  · rcases ht _ h with h | h
    · simp [varChar, hp] at h
    · exact absurd h (by decide)

theorem matchAt_not_var {letter : Char → Bool} (hl : PlainLetters letter) {r : Text × Text × Text} (hr : r ∈ reduceSigns) {w s b : Text}
    (hw : ∀ d ∈ w, isBlank d = true) (hs : NotSel letter s) (hc : ∀ d, s.head? = some d → isBlank d = false) (p : Option Char) :
    matchAt letter varRe p ('@' :: (r.1 ++ '(' :: (w ++ (s ++ ')' :: b)))) = none := by
  refine no_match (fun x q c c' hf h => ?_)
  obtain ⟨x, x7, _, rfl, hf, _⟩ := fit_seq hf
  obtain ⟨x, x6, _, rfl, hf, h6⟩ := fit_seq hf
  obtain ⟨x, x5, _, rfl, hf, h5⟩ := fit_seq hf
  obtain ⟨x, x4, _, rfl, hf, h4⟩ := fit_seq hf
  obtain ⟨x, x3, _, rfl, hf, h3⟩ := fit_seq hf
  obtain ⟨x, x2, _, rfl, hf, h2⟩ := fit_seq hf
  obtain ⟨r', hr', rfl⟩ := fit_signs hf
  obtain ⟨rfl, _⟩ := fit_lit h2
  obtain ⟨rfl, _⟩ := fit_lit h6
  have hw3 : ∀ d ∈ x3, isBlank d = true := fun d hd => by rw [← has_blank letter]; exact fit_star_all h3 d hd
  have hw5 : ∀ d ∈ x5, isBlank d = true := fun d hd => by rw [← has_blank letter]; exact fit_star_all h5 d hd
  have hn : SelName letter x4 := by
    obtain ⟨_, _, h4⟩ := fit_group h4
    obtain ⟨y1, y2, _, rfl, g1, g2⟩ := fit_seq h4
    cases g1 with
    | cls hk =>
      refine ⟨_, y2, rfl, by simpa [Cls.has, Item.has] using hk, fun d hd => ?_⟩
      have := fit_star_all g2 d hd
      simp only [Cls.has, Item.has, List.any_cons, List.any_nil, bne_iff_ne, ne_eq, Bool.not_eq_false, Bool.or_eq_true, beq_iff_eq, Bool.or_false] at this
      simp only [varChar, Bool.or_eq_true, beq_iff_eq]
      rcases this with h | h | h | h
      · exact .inl (.inl (.inl h))
      · exact .inl (.inl (.inr h))
      · exact .inl (.inr h)
      · exact .inr h
  simp only [List.cons_append, List.append_assoc, List.cons.injEq, true_and, List.nil_append] at h
  have h := signs_same hr hr' h
  have h := blanks_same hw hw3 (fun d hd => by
    cases s with
    | nil =>
      cases hd
      rfl
    | cons e s => exact hc d hd) (fun d hd => by
    obtain ⟨c₀, t, rfl, hc₀, _⟩ := hn
    cases hd
    exact blank_word hl hc₀) h
  have h : (s ++ [')']) ++ b = (x4 ++ (x5 ++ [')'])) ++ (x7 ++ q) := by simpa using h
  rcases List.append_eq_append_iff.mp h with ⟨a, h1, h2⟩ | ⟨a, h1, h2⟩
  · cases a with
    | nil => exact hs x4 x5 [] hn hw5 (by simpa using h1.symm)
    | cons d a =>
      have hm : ')' ∈ x4 ++ x5 := by
        have : x4 ++ x5 = s ++ [')'] ++ (d :: a).dropLast := by
          have := congrArg List.dropLast h1
          rw [← List.append_assoc, List.dropLast_concat, List.dropLast_append_of_ne_nil (by simp)] at this
          exact this
        rw [this]
        simp
      rcases List.mem_append.mp hm with hm | hm
      · exact par_not_sel hl hn hm
      · exact absurd (hw5 _ hm) (by decide)
  · exact hs x4 x5 a hn hw5 (by simpa using h1)

/-- No parenthesis is closed later on the line. -/
def LineFree (b : Text) : Prop := ∀ u v, b = u ++ ')' :: v → '\n' ∈ u

/-- No parenthesis is closed later on the line, or not before a character that the class does not have. -/
def ClassFree (letter : Char → Bool) (K : Cls) (b : Text) : Prop := ∀ u v, b = u ++ ')' :: v → '\n' ∈ u ∨ (K.has letter '@' = false ∧ '@' ∈ u ∧ ¬ c!":=" <:+: u)

/-- What follows the last character that is not in a text. -/
theorem after_char {u x r : Text} {c : Char} (hc : c ∈ u) (hr : c ∉ r) (hx : c ∉ c!":=") {s : Text} (h : s ++ u = x ++ (c!":=" ++ r)) : c!":=" <:+: u := by
  obtain ⟨u1, u2, rfl⟩ := List.append_of_mem hc
  rw [← List.append_assoc] at h
  rcases List.append_eq_append_iff.mp h with ⟨z, h1, h2⟩ | ⟨z, h1, h2⟩
  · cases z with
    | nil =>
      simp only [List.nil_append, List.cons_append, List.cons.injEq] at h2
      exact absurd (by rw [h2.1]; decide) hx
    | cons d z =>
      simp only [List.cons_append, List.cons.injEq] at h2
      exact ⟨u1 ++ c :: z, r, by rw [h2.2]; simp⟩
  · exfalso
    have : c ∈ c!":=" ++ r := by rw [h2]; simp
    rcases List.mem_append.mp this with h | h
    · exact hx h
    · exact hr h

theorem fit_close {β : Type} {letter : Char → Bool} {k : Cont β} {v : Text} {p : Option Char} {c : Caps} {r : β}
    (h : (run letter blankRe p v c fun p s c => run letter (lit ')') p s c fun p s c => run letter endRe p s c k) = some r) :
    ∃ y q, v = y ++ ')' :: q ∧ ∀ d ∈ y, isBlank d = true := by
  obtain ⟨y, q, c', rfl, hf, hq⟩ := run_sound letter _ h
  obtain ⟨y2, q2, c2, rfl, hf2, _⟩ := run_sound letter _ hq
  obtain ⟨rfl, _⟩ := fit_lit hf2
  refine ⟨y, q2, rfl, fun d hd => ?_⟩
  have := fit_star_all hf _ hd
  rwa [has_blank] at this

theorem matchAt_class {letter : Char → Bool} {K : Cls} (hK : K.has letter '\n' = false) {r : Text × Text × Text} (hr : r ∈ reduceSigns) {w s b b' : Text}
    (hw : ∀ d ∈ w, isBlank d = true) (hs : s ≠ []) (hc : ∀ d, s.head? = some d → isBlank d = false) (hn : ∀ d ∈ s, K.has letter d = true) (ha : ¬ c!":=" <:+: s)
    (hb : ClassFree letter K b) (hrem : Remains b b') (p : Option Char) :
    ∃ caps, matchAt letter (classRe K) p ('@' :: (r.1 ++ '(' :: (w ++ (s ++ ')' :: b)))) =
        some (('@' :: (r.1 ++ '(' :: (w ++ (s ++ ')' :: b)))).length - b'.length, caps) ∧
      groupOf caps c!"expr" = s ∧ groupOf caps c!"assign" = [] ∧ groupOf caps c!"reduce1" = r.2.1 ∧ groupOf caps c!"reduce2" = r.2.2 := by
  obtain ⟨c₀, t, rfl⟩ := List.exists_cons_of_ne_nil hs
  obtain ⟨d, h1, h2, h3, hrun⟩ := run_reduce_assign hr
  refine ⟨(c!"expr", c₀ :: t) :: d, ?_, ?_, ?_, ?_, ?_⟩
  · unfold matchAt classRe openRe
    simp only [run_seq_eq, run_lit_cons]
    refine hrun letter _ _ _ _ _ (by decide) (by decide) (fun p' => ?_)
    rw [run_lit_cons]
    refine run_blanks hw (fun d hd => hc d (by cases hd; rfl)) (fun p => ?_)
    rw [run_opt_eq]
    refine (Option.or_eq_right_of_none ?_).trans ?_
    · refine Option.eq_none_iff_forall_ne_some.mpr (fun res hres => ?_)
      obtain ⟨x, q, c', hx, hf, hq⟩ := run_sound letter _ hres
      obtain ⟨_, _, hf⟩ := fit_group hf
      obtain ⟨x, x4, _, rfl, hf, g4⟩ := fit_seq hf
      obtain ⟨x, x3, _, rfl, hf, g3⟩ := fit_seq hf
      obtain ⟨x, x2, _, rfl, hf, g2⟩ := fit_seq hf
      obtain ⟨rfl, _⟩ := fit_lit g2
      obtain ⟨rfl, _⟩ := fit_lit g3
      obtain ⟨y1, q1, _, rfl, e1, hq⟩ := run_sound letter _ hq
      obtain ⟨y2, q2, _, rfl, e2, hq⟩ := run_sound letter _ hq
      obtain ⟨y3, q3, rfl, e3⟩ := fit_close hq
      have n1 : '\n' ∉ x := fun hm => (has_line letter _).mp (fit_star_all hf _ hm) rfl
      have n4 : ∀ d ∈ x4, isBlank d = true := by
        cases g4 with
        | none => simp
        | one g =>
          obtain ⟨rfl, _⟩ := fit_lit g
          decide
      have n5 : ∀ d ∈ y1, isBlank d = true := fun d hd => by
        have := fit_star_all e1 _ hd
        rwa [has_blank] at this
      have n6 : ∀ d ∈ y2, K.has letter d = true := by
        obtain ⟨_, _, e2⟩ := fit_group e2
        obtain ⟨z1, z2, _, rfl, g1, g2⟩ := fit_seq e2
        cases g1 with
        | cls hk =>
          intro d hd
          rcases List.mem_cons.mp hd with rfl | hd
          · exact hk
          · exact fit_star_all g2 _ hd
      have hno : ∀ d, isBlank d = false → K.has letter d = false → d ∉ x4 ++ (y1 ++ (y2 ++ y3)) := by
        intro d d1 d2 hm
        simp only [List.mem_append] at hm
        rcases hm with hm | hm | hm | hm
        · rw [n4 d hm] at d1
          cases d1
        · rw [n5 d hm] at d1
          cases d1
        · rw [n6 d hm] at d2
          cases d2
        · rw [e3 d hm] at d1
          cases d1
      have hx' : (c₀ :: t) ++ ')' :: b = (x ++ (c!":=" ++ (x4 ++ (y1 ++ (y2 ++ y3))))) ++ ')' :: q3 := by simpa using hx
      rcases List.append_eq_append_iff.mp hx' with ⟨a, h1, h2⟩ | ⟨a, h1, h2⟩
      · cases a with
        | nil => exact ha ⟨x, x4 ++ (y1 ++ (y2 ++ y3)), by rw [List.append_nil] at h1; rw [← h1]; simp⟩
        | cons d a =>
          simp only [List.cons_append, List.cons.injEq] at h2
          rcases hb a q3 h2.2 with hm | ⟨hk, hm, hno'⟩
          · have : '\n' ∈ x ++ (c!":=" ++ (x4 ++ (y1 ++ (y2 ++ y3)))) := by rw [h1]; simp [hm]
            rcases List.mem_append.mp this with h | h
            · exact n1 h
            · rcases List.mem_append.mp h with h | h
              · exact absurd h (by decide)
              · exact hno _ (by decide) hK h
          · refine hno' (after_char hm (hno _ (by decide) hk) (by decide) (s := (c₀ :: t) ++ [d]) (x := x) ?_)
            rw [h1]
            simp
      · exact ha ⟨x, x4 ++ (y1 ++ (y2 ++ y3)) ++ a, by rw [h1]; simp⟩
    · refine run_blanks (w := []) (by simp) (fun d hd => hc d (by cases hd; rfl)) (fun p => ?_)
      rw [run_group_eq, run_seq_eq, List.cons_append, run_cls_cons (hn _ (by simp))]
      refine run_star_back (fun ch h => hn ch (by simp [h])) ?_ ?_
      · intro v1 v2 hv hv1 hl p
        refine Option.eq_none_iff_forall_ne_some.mpr (fun res hres => ?_)
        obtain ⟨y, q, rfl, hy⟩ := fit_close hres
        obtain ⟨e, v1, rfl⟩ := List.exists_cons_of_ne_nil hv1
        simp only [List.cons_append, List.cons.injEq] at hv
        have hno : ∀ d, isBlank d = false → K.has letter d = false → d ∉ v1 ++ y := by
          intro d d1 d2 hm
          rcases List.mem_append.mp hm with hm | hm
          · rw [hl d (List.mem_cons_of_mem _ hm)] at d2
            cases d2
          · rw [hy d hm] at d1
            cases d1
        rcases hb (v1 ++ y) q (by rw [hv.2, List.append_assoc]) with hm | ⟨hk, hm, _⟩
        · exact hno _ (by decide) hK hm
        · exact hno _ (by decide) hk hm
      · refine run_close hrem (fun _ => ?_)
        have := take_here (c₀ :: t) (')' :: b)
        show some (_, (c!"expr", List.take (((c₀ :: t) ++ ')' :: b).length - (')' :: b).length) ((c₀ :: t) ++ ')' :: b)) :: d) = _
        rw [this]
  · simp [groupOf]
  · refine (?_ : _ = groupOf d c!"assign").trans h3
    simp [groupOf]
  · rw [← h1]
    simp [groupOf]
  · rw [← h2]
    simp [groupOf]

theorem matchAt_expr {letter : Char → Bool} {r : Text × Text × Text} (hr : r ∈ reduceSigns) {w s b b' : Text} (hw : ∀ d ∈ w, isBlank d = true) (hs : s ≠ [])
    (hc : ∀ d, s.head? = some d → isBlank d = false) (hn : '\n' ∉ s) (ha : ¬ c!":=" <:+: s) (hb : LineFree b) (hrem : Remains b b') (p : Option Char) :
    ∃ caps, matchAt letter exprRe p ('@' :: (r.1 ++ '(' :: (w ++ (s ++ ')' :: b)))) = some (('@' :: (r.1 ++ '(' :: (w ++ (s ++ ')' :: b)))).length - b'.length, caps) ∧
      groupOf caps c!"expr" = s ∧ groupOf caps c!"assign" = [] ∧ groupOf caps c!"reduce1" = r.2.1 ∧ groupOf caps c!"reduce2" = r.2.2 :=
  matchAt_class (by rfl) hr hw hs hc (fun d hd => (has_line letter d).mpr fun e => hn (e ▸ hd)) ha (fun u v h => .inl (hb u v h)) hrem p

end Verif.Lemmas
