import Verif.Lemmas.RazorBlockSteps
/-!
# The loops in razor

`@for (` and `@foreach (` become `@range(` before the rules of commands.
-/

namespace Verif.Lemmas
open Verif Regex Spec Engine Razor Table

/-! ## The rule -/

def eachRe : Re := .seq (.seq (.seq (.seq blankRe (lit 'e')) (lit 'a')) (lit 'c')) (lit 'h')

/-- The rule of loops. -/
def loopRe : Re :=
  .seq (.seq (.seq (.seq (.seq (.seq (.seq (lit '@') reduceRe) (lit 'f')) (lit 'o')) (lit 'r')) (.opt true eachRe)) blankRe) (lit '(')

theorem loop_entry : (table.drop 18).take 1 = [(c!"Foreach", c!"@${reduce}range(", 0, loopRe)] := by
  decide +kernel

theorem loop_begins {letter : Char → Bool} : ∀ p ch t, ch ≠ '@' → matchAt letter loopRe p (ch :: t) = none := by
  intro p ch t h
  unfold matchAt loopRe
  rw [run_seq_eq, run_seq_eq, run_seq_eq, run_seq_eq, run_seq_eq, run_seq_eq, run_seq_eq, run_lit_ne _ h]

theorem fit_each {letter : Char → Bool} {p : Option Char} {x q : Text} {c c' : Caps} (h : Fit letter eachRe p x q c c') :
    ∃ w, (∀ d ∈ w, isBlank d = true) ∧ x = w ++ c!"each" := by
  obtain ⟨x, x4, _, rfl, h, h4⟩ := fit_seq h
  obtain ⟨x, x3, _, rfl, h, h3⟩ := fit_seq h
  obtain ⟨x, x2, _, rfl, h, h2⟩ := fit_seq h
  obtain ⟨x, x1, _, rfl, h, h1⟩ := fit_seq h
  refine ⟨x, fit_blanks h, ?_⟩
  rw [(fit_lit h1).1, (fit_lit h2).1, (fit_lit h3).1, (fit_lit h4).1]
  simp

theorem fit_loop {letter : Char → Bool} {p : Option Char} {x q : Text} {c c' : Caps} (h : Fit letter loopRe p x q c c') :
    ∃ r ∈ reduceSigns, ∃ m g, LoopWord m ∧ (∀ d ∈ g, isBlank d = true) ∧ x = '@' :: (r.1 ++ (m ++ (g ++ ['(']))) := by
  obtain ⟨x, x7, _, rfl, h, h7⟩ := fit_seq h
  obtain ⟨x, g, _, rfl, h, h6⟩ := fit_seq h
  obtain ⟨x, x5, _, rfl, h, h5⟩ := fit_seq h
  obtain ⟨x, x4, _, rfl, h, h4⟩ := fit_seq h
  obtain ⟨x, x3, _, rfl, h, h3⟩ := fit_seq h
  obtain ⟨x, x2, _, rfl, h, h2⟩ := fit_seq h
  obtain ⟨x, x1, _, rfl, h, h1⟩ := fit_seq h
  obtain ⟨r, hr, rfl⟩ := List.mem_map.mp (fit_reduce h1)
  have hx5 : LoopWord (c!"for" ++ x5) := by
    cases h5 with
    | none => exact .short
    | one h5 =>
      obtain ⟨w, hw, rfl⟩ := fit_each h5
      exact .each w hw
  refine ⟨r, hr, _, g, hx5, fit_blanks h6, ?_⟩
  rw [(fit_lit h).1, (fit_lit h2).1, (fit_lit h3).1, (fit_lit h4).1, (fit_lit h7).1]
  simp

theorem loop_not {letter : Char → Bool} {t : Text} (h : NotLoop t) (p : Option Char) : matchAt letter loopRe p ('@' :: t) = none := by
  refine no_match (fun x q k k' hf he => ?_)
  obtain ⟨r, hr, m, g, hm, hg, rfl⟩ := fit_loop hf
  exact h r m g q hr hm hg (by have := (List.cons.inj he).2; simpa using this)

theorem matchAt_loop {letter : Char → Bool} {r : Text × Text × Text} (hr : r ∈ reduceSigns) {m g t : Text} (hm : LoopWord m) (hg : ∀ d ∈ g, isBlank d = true)
    (p : Option Char) : ∃ caps, matchAt letter loopRe p ('@' :: ((r.1 ++ (m ++ (g ++ ['(']))) ++ t)) = some ((r.1 ++ (m ++ (g ++ ['(']))).length + 1, caps) ∧
      groupOf caps c!"reduce" = r.1 := by
  obtain ⟨d, _, _, _, h1, hd⟩ := run_reduce_all hr
  refine ⟨d, ?_, h1⟩
  have rest : ∀ {β : Type} (p : Option Char) (k : Cont β) (res : β), (∀ p', k p' t d = some res) →
      run letter blankRe p (g ++ '(' :: t) d (fun p s c => run letter (lit '(') p s c k) = some res := by
    intro β p k res hk
    refine run_blanks hg (by rintro _ ⟨⟩; rfl) (fun p => ?_)
    rw [run_lit_cons]
    exact hk _
  unfold matchAt loopRe
  rw [run_seq_eq, run_seq_eq, run_seq_eq, run_seq_eq, run_seq_eq, run_seq_eq, run_seq_eq, run_lit_cons]
  cases hm with
  | short =>
    simp only [List.append_assoc, List.cons_append, List.nil_append]
    refine hd letter _ _ _ _ _ (by decide) (by decide) (fun p' => ?_)
    rw [run_lit_cons, run_lit_cons, run_lit_cons, run_opt_eq]
    have no : ∀ {β : Type} (p : Option Char) (k : Cont β), run letter eachRe p (g ++ '(' :: t) d k = none := by
      intro β p k
      cases hrun : run letter eachRe p (g ++ '(' :: t) d k with
      | none => rfl
      | some x =>
        obtain ⟨y, q, c', he, hf, _⟩ := run_sound letter _ hrun
        obtain ⟨w, hw, rfl⟩ := fit_each hf
        have : '(' = 'e' := by
          have key : ∀ (g w : Text) (a b : Char) (s s' : Text), (∀ d ∈ g, isBlank d = true) → (∀ d ∈ w, isBlank d = true) → isBlank a = false → isBlank b = false →
              g ++ a :: s = w ++ b :: s' → a = b := by
            intro g
            induction g with
            | nil =>
              intro w a b s s' _ hw ha hb h
              cases w with
              | nil => exact (List.cons.inj h).1
              | cons c w =>
                have := (List.cons.inj h).1
                rw [this, hw c (List.mem_cons_self ..)] at ha
                cases ha
            | cons c g ih =>
              intro w a b s s' hg hw ha hb h
              cases w with
              | nil =>
                have := (List.cons.inj h).1
                rw [← this, hg c (List.mem_cons_self ..)] at hb
                cases hb
              | cons e w =>
                exact ih w a b s s' (fun d hd => hg d (List.mem_cons_of_mem _ hd)) (fun d hd => hw d (List.mem_cons_of_mem _ hd)) ha hb (List.cons.inj h).2
          exact key g w '(' 'e' t (c!"ach" ++ q) hg hw (by decide) (by decide) (by simpa using he)
        cases this
    rw [no, Option.none_or]
    refine rest _ _ _ (fun p' => ?_)
    simp
    omega
  | each w hw =>
    simp only [List.append_assoc, List.cons_append, List.nil_append]
    refine hd letter _ _ _ _ _ (by decide) (by decide) (fun p' => ?_)
    rw [run_lit_cons, run_lit_cons, run_lit_cons, run_opt_eq]
    have yes : ∀ {β : Type} (p : Option Char) (k : Cont β) (res : β), (∀ p', k p' (g ++ '(' :: t) d = some res) →
        run letter eachRe p (w ++ 'e' :: 'a' :: 'c' :: 'h' :: (g ++ '(' :: t)) d k = some res := by
      intro β p k res hk
      unfold eachRe
      rw [run_seq_eq, run_seq_eq, run_seq_eq, run_seq_eq]
      refine run_blanks hw (by rintro _ ⟨⟩; rfl) (fun p => ?_)
      rw [run_lit_cons, run_lit_cons, run_lit_cons, run_lit_cons]
      exact hk _
    rw [yes _ _ _ (fun p' => rest _ _ _ (fun p' => rfl))]
    simp
    omega

theorem expand_loop (caps : Caps) : expand (groupOf caps) c!"@${reduce}range(" = '@' :: (groupOf caps c!"reduce" ++ c!"range(") := by
  unfold expand
  simp [expandAux, Razor.groupName, nameChar, Text.hasPrefix, Text.dropPrefix?]

/-- The rule on a text with loops. -/
theorem rule_loop {letter : Char → Bool} (parser : Replacement → Text → Text) {t t' : Text} (h : Loops t t') :
    (((generate defaultDelims).drop 18).take 1).foldl (applyRule letter parser) t = t' := by
  refine rule_one parser loop_entry (fun out ho => ?_)
  have hout : ∀ x caps, out x caps = '@' :: (groupOf caps c!"reduce" ++ c!"range(") := fun x caps => by rw [ho, expand_loop]
  induction h with
  | plain a ha => exact replaceAux_plain loop_begins _ ha
  | other a t t' ha hn _ ih => exact replaceAux_over (x := []) loop_begins ha (by simp) (loop_not hn) ih
  | loop a m g t t' r ha hr hm hg _ ih =>
    intro p
    have := replaceAux_match (out := out) (x := r.1 ++ (m ++ (g ++ ['(']))) (q := t) (code := '@' :: (r.1 ++ c!"range(")) loop_begins ha (fun p => by
      obtain ⟨caps, h1, h2⟩ := matchAt_loop (letter := letter) (t := t) hr hm hg p
      exact ⟨caps, h1, fun m => by rw [hout, h2]⟩) ih p
    simpa using this

/-! ## Texts without loops -/

mutual
theorem inWord_not_name {letter : Char → Bool} (hl : PlainLetters letter) {P : Text → Prop} : ∀ {q : Text}, InWord P q → ¬ NameNext letter q
  | _, .letter c q hc h, hn => by
    have ha : letter c = c.isAlpha := hl.1 c ((by decide : ∀ c ∈ c!"fithangeorch", c.toNat < 128) c hc)
    have hk := (by decide +kernel : ∀ c ∈ c!"fithangeorch", bkindOf Char.isAlpha c ≠ .blank ∧ c ≠ '/' ∧ bkindOf Char.isAlpha c ≠ .other) c hc
    rw [← bkindOf_congr ha] at hk
    rcases nameNext_step hl hn with ⟨_, hn⟩ | ⟨e, _⟩ | ⟨e, _⟩ | ⟨e, _⟩
    · exact inWord_not_name hl h hn
    · exact hk.1 e
    · exact hk.2.1 e
    · exact hk.2.2 e
  | _, .gap q h, hn => (inGap_not_name hl h).1 hn
theorem inGap_not_name {letter : Char → Bool} (hl : PlainLetters letter) {P : Text → Prop} : ∀ {q : Text}, InGap P q → ¬ NameNext letter q ∧ ¬ SignNext q
  | _, .blank c q hc h => by
    have hk : bkindOf letter c = .blank ∧ c ≠ '/' := by
      simp only [isBlank, Bool.or_eq_true, beq_iff_eq] at hc
      rcases hc with rfl | rfl <;> exact ⟨rfl, by decide⟩
    have ih := inGap_not_name hl h
    refine ⟨fun hn => ?_, fun hn => ?_⟩
    · rcases nameNext_step hl hn with ⟨e, _⟩ | ⟨_, hn⟩ | ⟨e, _⟩ | ⟨e, _⟩
      · rw [hk.1] at e
        exact absurd e (by decide)
      · exact ih.2 hn
      · exact hk.2 e
      · rw [hk.1] at e
        cases e
    · rcases signNext_step hl hn with ⟨_, hn⟩ | ⟨e, _⟩ | ⟨e, _⟩
      · exact ih.2 hn
      · exact hk.2 e
      · rw [hk.1] at e
        exact absurd e (by decide)
  | _, .each q h => by
    have ih := inWord_not_name hl h
    refine ⟨fun hn => ?_, fun hn => ?_⟩
    · rcases nameNext_step hl hn with ⟨_, hn⟩ | ⟨e, _⟩ | ⟨e, _⟩ | ⟨e, _⟩
      · exact ih hn
      · cases e
      · cases e
      · cases e
    · rcases signNext_step hl hn with ⟨e, _⟩ | ⟨e, _⟩ | ⟨e, _⟩
      · cases e
      · cases e
      · exact absurd e (by simp [bkindOf, bkinds, List.lookup])
  | _, .start y _ => by
    refine ⟨fun hn => ?_, fun hn => ?_⟩
    · rcases nameNext_step hl hn with ⟨e, _⟩ | ⟨e, _⟩ | ⟨e, _⟩ | ⟨e, _⟩
      · exact absurd e (by simp [bkindOf, bkinds, List.lookup])
      · cases e
      · cases e
      · cases e
    · rcases signNext_step hl hn with ⟨e, _⟩ | ⟨e, _⟩ | ⟨e, _⟩
      · cases e
      · cases e
      · exact absurd e (by simp [bkindOf, bkinds, List.lookup])
end

/-- The signs are the same. -/
theorem signs_first {r r' : Text} (hr : ∀ c ∈ r, c = '-' ∨ c = '_') (hr' : ∀ c ∈ r', c = '-' ∨ c = '_') {c d : Char} {x y : Text} (hc : c ≠ '-' ∧ c ≠ '_')
    (hd : d ≠ '-' ∧ d ≠ '_') (h : r ++ c :: x = r' ++ d :: y) : c :: x = d :: y := by
  induction r generalizing r' with
  | nil =>
    cases r' with
    | nil => exact h
    | cons e r' =>
      have e1 := (List.cons.inj h).1
      have := hr' e (List.mem_cons_self ..)
      rw [← e1] at this
      exact absurd this (by simp [hc.1, hc.2])
  | cons e r ih =>
    cases r' with
    | nil =>
      have e1 := (List.cons.inj h).1
      have := hr e (List.mem_cons_self ..)
      rw [e1] at this
      exact absurd this (by simp [hd.1, hd.2])
    | cons e' r' => exact ih (fun c hc => hr c (List.mem_cons_of_mem _ hc)) (fun c hc => hr' c (List.mem_cons_of_mem _ hc)) (List.cons.inj h).2

theorem reduce_chars {r : Text × Text × Text} (hr : r ∈ reduceSigns) : ∀ c ∈ r.1, c = '-' ∨ c = '_' := by
  revert r
  decide

/-- The first character after the signs of a delimiter. -/
theorem lead_head {letter : Char → Bool} {z : Text} (h : Lead letter z) : ∃ c t, z = c :: t ∧ c ∈ c!"(ebdiwr" ∧ (c = 'r' → ∃ g y, z = c!"range" ++ (g ++ '(' :: y) ∧
    (∀ c ∈ g, isBlank c = true) ∧ LinePlain y) := by
  cases h with
  | paren y => exact ⟨_, _, rfl, by decide, fun h => absurd h (by decide)⟩
  | word m b hm _ =>
    simp only [List.mem_cons, List.not_mem_nil, or_false] at hm
    rcases hm with rfl | rfl | rfl | rfl <;> exact ⟨_, _, rfl, by decide, fun h => absurd h (by decide)⟩
  | command m g y hm hg hy =>
    simp only [List.mem_cons, List.not_mem_nil, or_false] at hm
    rcases hm with rfl | rfl | rfl
    · exact ⟨_, _, rfl, by decide, fun h => absurd h (by decide)⟩
    · exact ⟨_, _, rfl, by decide, fun h => absurd h (by decide)⟩
    · exact ⟨_, _, rfl, by decide, fun _ => ⟨g, y, rfl, hg, hy⟩⟩

/-- What follows a delimiter, after a sign and a letter. -/
theorem after_letter {letter : Char → Bool} (hl : PlainLetters letter) {r : Text × Text × Text} (hr : r ∈ reduceSigns) {P : Text → Prop} {c : Char} {q : Text}
    (hc : c ∈ c!"fr") (hq : InWord P q) (h : AfterSign letter (r.1 ++ c :: q) ∨ AssignNext letter (r.1 ++ c :: q)) :
    c = 'r' ∧ ∃ g y, c :: q = c!"range" ++ (g ++ '(' :: y) ∧ (∀ c ∈ g, isBlank c = true) ∧ LinePlain y := by
  have hcs := (by decide : ∀ c ∈ c!"fr", c ≠ '-' ∧ c ≠ '_' ∧ c ≠ '$' ∧ c ≠ '.') c hc
  rcases h with ⟨r', z, e, hr', hz⟩ | h
  · obtain ⟨d, t, rfl, hd, hrange⟩ := lead_head hz
    have := signs_first (reduce_chars hr) hr' ⟨hcs.1, hcs.2.1⟩ ((by decide : ∀ d ∈ c!"(ebdiwr", d ≠ '-' ∧ d ≠ '_') d hd) e
    obtain ⟨rfl, rfl⟩ := List.cons.inj this
    have : c = 'r' := by
      simp only [List.mem_cons, List.not_mem_nil, or_false] at hc
      rcases hc with rfl | rfl
      · exact absurd hd (by decide)
      · rfl
    exact ⟨this, hrange this⟩
  · exfalso
    have hrc := reduce_chars hr
    generalize r.1 = s at h hrc
    generalize hz : s ++ c :: q = z at h
    cases s with
    | cons d s =>
      have hd := hrc d (List.mem_cons_self ..)
      cases h with
      | sign e y he =>
        have := (List.cons.inj hz).1
        rw [this] at hd
        rcases hd with rfl | rfl <;> rcases he with he | he <;> cases he
      | name e y he _ =>
        have := (List.cons.inj hz).1
        rw [this] at hd
        rcases hd with rfl | rfl
        · rw [hl.1 _ (by decide)] at he
          exact absurd he (by decide)
        · rw [hl.1 _ (by decide)] at he
          exact absurd he (by decide)
    | nil =>
      cases h with
      | sign e y he =>
        have := (List.cons.inj hz).1
        rw [← this] at he
        rcases he with he | he
        · exact hcs.2.2.1 he
        · exact hcs.2.2.2 he
      | name e y _ hy =>
        rw [← (List.cons.inj hz).2] at hy
        exact inWord_not_name hl hq hy

theorem shape_noLoop {letter : Char → Bool} (hl : PlainLetters letter) {v : Text} (h : AfterSign letter v ∨ AssignNext letter v) : NotLoop v := by
  intro r m g y hr hm hg hv
  obtain ⟨q, hq, hw⟩ := loopWord_next (P := fun _ => True) hm hg trivial
  rw [hv, hq] at h
  exact absurd (after_letter hl hr (by decide) hw h).1 (by decide)

theorem first_split {t : Text} (h : '@' ∈ t) : ∃ a v, t = a ++ '@' :: v ∧ '@' ∉ a := by
  induction t with
  | nil => cases h
  | cons c t ih =>
    by_cases hc : c = '@'
    · subst hc
      exact ⟨[], t, rfl, by simp⟩
    · rcases List.mem_cons.mp h with e | h
      · exact absurd e.symm hc
      · obtain ⟨a, v, rfl, ha⟩ := ih h
        exact ⟨c :: a, v, rfl, by simp [ha, Ne.symm hc]⟩

theorem loops_self : ∀ (n : Nat) {t : Text}, t.length ≤ n → (∀ u v, t = u ++ '@' :: v → NotLoop v) → Loops t t := by
  intro n
  induction n with
  | zero =>
    intro t ht _
    rw [List.length_eq_zero_iff.mp (Nat.le_zero.mp ht)]
    exact .plain [] (by simp)
  | succ n ih =>
    intro t ht h
    by_cases hat : '@' ∈ t
    · obtain ⟨a, v, rfl, ha⟩ := first_split hat
      refine .other a v v ha (h a v rfl) (ih ?_ fun u w hv => h (a ++ '@' :: u) w (by rw [hv]; simp))
      simp at ht
      omega
    · exact .plain t hat

theorem shape_loops {letter : Char → Bool} (hl : PlainLetters letter) {t : Text} (h : BlockShape letter t) : Loops t t :=
  loops_self _ (Nat.le_refl _) fun u v ht => shape_noLoop hl (h u v ht).2

/-! ## The shape of a text with loops -/

/-- Two texts are the same up to a delimiter. -/
def SameUpTo (t t' : Text) : Prop := t = t' ∨ ∃ p q q', '@' ∉ p ∧ t = p ++ '@' :: q ∧ t' = p ++ '@' :: q'

theorem loops_same {t t' : Text} (h : Loops t t') : SameUpTo t t' := by
  cases h with
  | plain a _ => exact .inl rfl
  | other a t t' ha _ _ => exact .inr ⟨a, _, _, ha, rfl, rfl⟩
  | loop a m g t t' r ha _ _ _ _ => exact .inr ⟨a, _, _, ha, rfl, rfl⟩

theorem same_front {x t z' : Text} (hx : '@' ∉ x) (h : SameUpTo t (x ++ z')) : ∃ z, t = x ++ z ∧ SameUpTo z z' := by
  rcases h with rfl | ⟨p, q, q', hp, rfl, he⟩
  · exact ⟨z', rfl, .inl rfl⟩
  · rcases List.append_eq_append_iff.mp he with ⟨m, h1, h2⟩ | ⟨m, h1, h2⟩
    · subst h1
      exact ⟨m ++ '@' :: q, by simp, .inr ⟨m, q, q', fun hm => hp (by simp [hm]), rfl, h2⟩⟩
    · cases m with
      | nil =>
        rw [List.append_nil] at h1
        subst h1
        exact ⟨'@' :: q, rfl, .inr ⟨[], q, q', by simp, rfl, by rw [List.nil_append] at h2; simp [← h2]⟩⟩
      | cons c m =>
        simp only [List.cons_append, List.cons.injEq] at h2
        exact absurd (by rw [h1, ← h2.1]; simp) hx

theorem linePlain_same {y y' : Text} (h : SameUpTo y y') (hy : LinePlain y') : LinePlain y := by
  rcases h with rfl | ⟨p, q, q', hp, rfl, rfl⟩
  · exact hy
  · intro u d v he hd
    have hline := hy p '@' q' rfl (by decide)
    rcases List.append_eq_append_iff.mp he with ⟨m, h1, h2⟩ | ⟨m, h1, h2⟩
    · rw [h1]
      simp [hline]
    · cases m with
      | nil =>
        rw [List.append_nil] at h1
        rw [← h1]
        exact hline
      | cons c m =>
        simp only [List.cons_append, List.cons.injEq] at h2
        exact hy u d (m ++ '@' :: q') (by rw [h1, h2.1]; simp) hd

theorem notHost_same {letter : Char → Bool} (hl : PlainLetters letter) {y y' : Text} (h : SameUpTo y y') (hy : NotHost letter y') : NotHost letter y := by
  have hat : hostChar letter '@' = false := by
    unfold hostChar varChar
    rw [hl.1 _ (by decide)]
    decide
  rcases h with rfl | ⟨p, q, q', hp, rfl, rfl⟩
  · exact hy
  · intro f c e hf hc he
    have he' : p ++ '@' :: q = (f ++ ['.', c]) ++ e := by rw [he]; simp
    rcases List.append_eq_append_iff.mp he' with ⟨m, h1, h2⟩ | ⟨m, h1, h2⟩
    · cases m with
      | nil =>
        rw [List.append_nil] at h1
        exact hy f c ('@' :: q') hf hc (by rw [← h1]; simp)
      | cons d m =>
        simp only [List.cons_append, List.cons.injEq] at h2
        have : '@' ∈ f ++ ['.', c] := by rw [h1, ← h2.1]; simp
        rcases List.mem_append.mp this with hm | hm
        · exact absurd (hf _ hm) (by rw [hat]; decide)
        · simp only [List.mem_cons, List.not_mem_nil, or_false] at hm
          rcases hm with hm | hm
          · cases hm
          · rw [← hm, hat] at hc
            cases hc
    · exact hy f c (m ++ '@' :: q') hf hc (by rw [h1]; simp)

theorem nameNext_same {letter : Char → Bool} (hl : PlainLetters letter) {y y' : Text} (h : SameUpTo y y') (hy : NameNext letter y') : NameNext letter y := by
  obtain ⟨n, w, o, z, rfl, hn, hw, ho, hm⟩ := hy
  have hat : '@' ∉ n ++ (w ++ [o]) := by
    intro hm
    simp only [List.mem_append, List.mem_singleton] at hm
    rcases hm with hm | hm | hm
    · have := hn _ hm
      unfold varChar at this
      rw [hl.1 _ (by decide)] at this
      exact absurd this (by decide)
    · exact absurd (hw _ hm) (by decide)
    · rw [← hm] at ho
      exact absurd ho (by decide)
  obtain ⟨z', e, _⟩ := same_front hat (t := y) (z' := z) (by simpa using h)
  exact ⟨n, w, o, z', by rw [e]; simp, hn, hw, ho, hm⟩

theorem lead_same {letter : Char → Bool} (hl : PlainLetters letter) {z z' : Text} (h : SameUpTo z z') (hz : Lead letter z') : Lead letter z := by
  cases hz with
  | paren y =>
    obtain ⟨x, rfl, _⟩ := same_front (x := ['(']) (by decide) h
    exact .paren x
  | word m b hm hb =>
    obtain ⟨x, rfl, hx⟩ := same_front ((by decide : ∀ m ∈ [c!"else", c!"end", c!"block", c!"define"], '@' ∉ m) m hm) h
    exact .word m x hm (notHost_same hl hx hb)
  | command m g y hm hg hy =>
    have hat : '@' ∉ m ++ (g ++ ['(']) := by
      simp only [List.mem_append, List.mem_singleton, not_or]
      exact ⟨(by decide : ∀ m ∈ [c!"if", c!"with", c!"range"], '@' ∉ m) m hm, fun h => absurd (hg _ h) (by decide), by decide⟩
    obtain ⟨x, e, hx⟩ := same_front hat (t := z) (z' := y) (by simpa using h)
    have : z = m ++ (g ++ '(' :: x) := by rw [e]; simp
    rw [this]
    exact .command m g x hm hg (linePlain_same hx hy)

theorem next_same {letter : Char → Bool} (hl : PlainLetters letter) {v v' : Text} (h : SameUpTo v v') (hv : AfterSign letter v' ∨ AssignNext letter v') :
    AfterLoop letter v ∨ AssignNext letter v := by
  rcases hv with ⟨r, z, rfl, hr, hz⟩ | hv
  · obtain ⟨x, rfl, hx⟩ := same_front (fun hm => by rcases hr _ hm with h | h <;> cases h) h
    exact .inl ⟨r, x, rfl, hr, .lead _ (lead_same hl hx hz)⟩
  · cases hv with
    | sign c y hc =>
      obtain ⟨x, rfl, _⟩ := same_front (x := [c]) (by rcases hc with rfl | rfl <;> decide) h
      exact .inr (.sign c x hc)
    | name c q hc hq =>
      have : c ≠ '@' := by
        rintro rfl
        rw [hl.1 _ (by decide)] at hc
        exact absurd hc (by decide)
      obtain ⟨x, rfl, hx⟩ := same_front (x := [c]) (by simp [Ne.symm this]) h
      exact .inr (.name c x hc (nameNext_same hl hx hq))

theorem notCommented_end {x u : Text} (h : NotCommented (x ++ u)) : NotCommented u := fun v m w hm hw he => h (x ++ v) m w hm hw (by rw [he]; simp)

theorem notCommented_at {x u : Text} {c : Char} (hc : c = '@' ∨ c = '(') (h : NotCommented u) : NotCommented (x ++ c :: u) := by
  intro v m w hm hw he
  have hmw : c ∉ m ++ w := by
    intro hi
    rcases List.mem_append.mp hi with hi | hi
    · rcases hc with rfl | rfl
      · exact absurd hi ((by decide : ∀ m ∈ commentSigns, '@' ∉ m) m hm)
      · exact absurd hi ((by decide : ∀ m ∈ commentSigns, '(' ∉ m) m hm)
    · rcases hc with rfl | rfl <;> exact absurd (hw _ hi) (by decide)
  rcases List.append_eq_append_iff.mp he with ⟨z, h1, h2⟩ | ⟨z, h1, h2⟩
  · cases z with
    | nil => exact hmw (by rw [List.nil_append] at h2; rw [← h2]; simp)
    | cons d z =>
      simp only [List.cons_append, List.cons.injEq] at h2
      exact h z m w hm hw h2.2
  · exact hmw (by rw [h2]; simp)

theorem loop_shape {letter : Char → Bool} (hl : PlainLetters letter) {t t' : Text} (h : Loops t t') : BlockShape letter t' → LoopShape letter t := by
  have later : ∀ {x t : Text} {c : Char}, (c = '@' ∨ c = '(') → LoopShape letter t → ∀ u v, t = u ++ '@' :: v → NotCommented (x ++ c :: u) ∧ (AfterLoop letter v ∨ AssignNext letter v) :=
    fun hc ht u v he => ⟨notCommented_at hc (ht u v he).1, (ht u v he).2⟩
  induction h with
  | plain a ha =>
    intro _ u v he
    exact absurd (by rw [he]; simp) ha
  | other a t t' ha _ hlo ih =>
    intro hs u v he
    have ht' : LoopShape letter t := ih fun u v he => by
      have := hs (a ++ '@' :: u) v (by rw [he]; simp)
      exact ⟨notCommented_end (x := a ++ ['@']) (by simpa using this.1), this.2⟩
    have h0 := hs a t' rfl
    rcases first_at ha he with ⟨rfl, rfl⟩ | ⟨z, rfl, hz⟩
    · exact ⟨h0.1, next_same hl (loops_same hlo) h0.2⟩
    · exact later (.inl rfl) ht' z v hz
  | loop a m g t t' r ha hr hm hg hlo ih =>
    intro hs u v he
    have ht' : LoopShape letter t := ih fun u v he => by
      have := hs (a ++ '@' :: (r.1 ++ (c!"range(" ++ u))) v (by rw [he]; simp)
      exact ⟨notCommented_end (x := a ++ '@' :: (r.1 ++ c!"range(")) (by simpa using this.1), this.2⟩
    have h0 := hs a _ rfl
    have hq : InWord (fun _ => True) (c!"ange(" ++ t') := inWord_open (n := c!"ange") (g := []) (by decide) (by simp) trivial
    obtain ⟨_, g', y, e, hg', hy⟩ := after_letter hl hr (c := 'r') (by decide) hq h0.2
    have hyt : y = t' := by
      simp only [List.cons_append, List.nil_append, List.cons.injEq, true_and] at e
      cases g' with
      | nil => simpa using e.symm
      | cons d g' =>
        simp only [List.cons_append, List.cons.injEq] at e
        exact absurd (hg' d (List.mem_cons_self ..)) (by rw [← e.1]; decide)
    subst hyt
    rcases first_at ha he with ⟨rfl, rfl⟩ | ⟨z, rfl, hz⟩
    · exact ⟨h0.1, .inl ⟨r.1, _, rfl, reduce_chars hr, .loop m g t hm hg (linePlain_same (loops_same hlo) hy)⟩⟩
    · have hat : '@' ∉ r.1 ++ (m ++ (g ++ ['('])) := by
        have hm' : '@' ∉ m := by
          cases hm with
          | short => decide
          | each w hw =>
            simp only [List.mem_append, not_or]
            exact ⟨by decide, fun h => absurd (hw _ h) (by decide), by decide⟩
        simp only [List.mem_append, List.mem_singleton, not_or]
        exact ⟨(sign_at hr).1, hm', fun h => absurd (hg _ h) (by decide), by decide⟩
      have hz' : (r.1 ++ (m ++ (g ++ ['(']))) ++ t = z ++ '@' :: v := by rw [← hz]; simp
      rcases List.append_eq_append_iff.mp hz' with ⟨w, h1, h2⟩ | ⟨w, h1, h2⟩
      · have := later (x := a ++ '@' :: (r.1 ++ (m ++ g))) (.inr rfl) ht' w v h2
        rw [h1]
        simpa using this
      · cases w with
        | nil =>
          have := later (x := a ++ '@' :: (r.1 ++ (m ++ g))) (.inr rfl) ht' [] v (by rw [List.nil_append] at h2; rw [← h2]; rfl)
          rw [List.append_nil] at h1
          rw [← h1]
          simpa using this
        | cons c w =>
          simp only [List.cons_append, List.cons.injEq] at h2
          exact absurd (by rw [h1, ← h2.1]; simp) hat

/-- What is in the text after the rule is in the text before. -/
theorem loop_infix {t t' : Text} (h : Loops t t') {f f' : Text} {c : Char} (hf : f = f' ++ [c]) (hc : c ∉ c!"range(") (h1 : '@' ∉ f) (h2 : '(' ∉ f) (hi : f <:+: t') :
    f <:+: t := by
  induction h with
  | plain a _ => exact hi
  | other a t t' _ _ _ ih =>
    rcases infix_glue h1 hi with hi | hi
    · exact hi.trans (List.prefix_append _ _).isInfix
    · exact (ih hi).trans ⟨a ++ ['@'], [], by simp⟩
  | loop a m g t t' r _ _ _ _ _ ih =>
    rcases infix_glue h1 hi with hi | hi
    · exact hi.trans (List.prefix_append _ _).isInfix
    · have e : r.1 ++ (c!"range(" ++ t') = (r.1 ++ c!"range") ++ '(' :: t' := by simp
      rw [e] at hi
      rcases infix_glue h2 hi with ⟨u, v, hi⟩ | hi
      · subst hf
        rcases List.append_eq_append_iff.mp hi with ⟨w, h3, h4⟩ | ⟨w, h3, h4⟩
        · exact List.IsInfix.trans (⟨u, w, h3.symm⟩ : f' ++ [c] <:+: r.1) ⟨a ++ ['@'], m ++ (g ++ '(' :: t), by simp⟩
        · rcases List.eq_nil_or_concat w with rfl | ⟨w', d, rfl⟩
          · rw [List.append_nil] at h3
            exact List.IsInfix.trans (⟨u, [], by rw [← h3]; simp⟩ : f' ++ [c] <:+: r.1) ⟨a ++ ['@'], m ++ (g ++ '(' :: t), by simp⟩
          · have hd : c = d := by
              have := congrArg List.getLast? h3
              simpa using this
            refine absurd ?_ hc
            have : d ∈ c!"range" := by rw [h4]; simp
            rw [hd]
            exact (by decide : ∀ d ∈ c!"range", d ∈ c!"range(") d this
      · exact (ih hi).trans ⟨a ++ '@' :: (r.1 ++ (m ++ (g ++ ['(']))), [], by simp⟩

end Verif.Lemmas
