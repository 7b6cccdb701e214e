import Verif.Model.Protect
import Verif.Spec.LiteralSpec
/-! # Lemmas about the protection of literals -/

namespace Verif.Protect
open Verif Spec

theorem isQuote_iff {c : Char} : isQuote c = true ↔ Quote c := by
  simp [isQuote, Quote]

/-- Text split at its trailing backslashes. -/
theorem rev_split (t : Text) : ∃ pre, t.reverse = pre ++ List.replicate (t.takeWhile (· == '\\')).length '\\' ∧
    ∀ p, pre ≠ p ++ ['\\'] := by
  induction t with
  | nil => exact ⟨[], by simp, by simp⟩
  | cons c t ih =>
    by_cases hc : c = '\\'
    · subst hc
      obtain ⟨pre, h1, h2⟩ := ih
      refine ⟨pre, ?_, h2⟩
      rw [List.reverse_cons, h1]
      simp [List.replicate_succ']
    · refine ⟨(c :: t).reverse, ?_, ?_⟩
      · simp [hc]
      · intro p hp
        simp only [List.reverse_cons] at hp
        have := List.append_inj_right' hp rfl
        simp at this; exact hc this

theorem trailing_unique {pre pre' : Text} {n m : Nat} (h : pre ++ List.replicate n '\\' = pre' ++ List.replicate m '\\')
    (h1 : ∀ p, pre ≠ p ++ ['\\']) (h2 : ∀ p, pre' ≠ p ++ ['\\']) : n = m := by
  induction n generalizing m with
  | zero =>
    cases m with
    | zero => rfl
    | succ m =>
      simp only [List.replicate_zero, List.append_nil, List.replicate_succ'] at h
      exact absurd (by rw [h, List.append_assoc]) (h1 (pre' ++ List.replicate m '\\'))
  | succ n ih =>
    cases m with
    | zero =>
      simp only [List.replicate_zero, List.append_nil, List.replicate_succ'] at h
      exact absurd (by rw [← h, List.append_assoc]) (h2 (pre ++ List.replicate n '\\'))
    | succ m =>
      rw [List.replicate_succ', List.replicate_succ', ← List.append_assoc, ← List.append_assoc] at h
      rw [ih (List.append_inj_left' h rfl)]

theorem escaped_iff {t : Text} : escaped t.reverse = true ↔ EndsEscaped t := by
  obtain ⟨pre, h1, h2⟩ := rev_split t.reverse
  rw [List.reverse_reverse] at h1
  unfold escaped EndsEscaped
  generalize (t.reverse.takeWhile (· == '\\')).length = k at *
  rw [beq_iff_eq]
  constructor
  · intro hk
    exact ⟨pre, k / 2, by rw [h1]; congr 2; omega, h2⟩
  · rintro ⟨pre', n, h3, h4⟩
    have := trailing_unique (h1.symm.trans h3) h2 h4
    omega

/-- A quote closes the literal. -/
def closes (q : Char) (before : Text) : Bool := !(q == '"' && escaped before)

theorem scanClose_cons (q : Char) (acc : Text) (c : Char) (cs : Text) :
    scanClose q acc (c :: cs) = if c = q ∧ closes q acc = true then some (acc.reverse, cs) else scanClose q (c :: acc) cs := by
  simp only [scanClose]
  by_cases hc : c = q
  · subst hc; simp [closes]
  · simp [hc]

theorem scanClose_some {q : Char} {s : Text} : ∀ {acc b a : Text}, scanClose q acc s = some (b, a) →
    ∃ mid, s = mid ++ q :: a ∧ b = acc.reverse ++ mid ∧ closes q (mid.reverse ++ acc) = true ∧
      ∀ pre post, mid = pre ++ q :: post → closes q (pre.reverse ++ acc) = false := by
  induction s with
  | nil => intro acc b a h; simp [scanClose] at h
  | cons c cs ih =>
    intro acc b a h
    rw [scanClose_cons] at h
    split at h
    · rename_i hc
      simp only [Option.some.injEq, Prod.mk.injEq] at h
      obtain ⟨rfl, rfl⟩ := h
      exact ⟨[], by simp [hc.1], by simp, by simpa using hc.2, by intro pre post h; simp at h⟩
    · rename_i hc
      obtain ⟨mid, h1, h2, h3, h4⟩ := ih h
      refine ⟨c :: mid, by simp [h1], by simp [h2], by simpa using h3, ?_⟩
      intro pre post hp
      cases pre with
      | nil =>
        simp only [List.nil_append, List.cons.injEq] at hp
        cases hcl : closes q acc with
        | false => simpa using hcl
        | true => exact absurd ⟨hp.1, hcl⟩ hc
      | cons x pre =>
        simp only [List.cons_append, List.cons.injEq] at hp
        have := h4 pre post hp.2
        rw [hp.1] at this
        simpa using this

theorem scanClose_of {q : Char} {mid : Text} : ∀ {acc a : Text}, closes q (mid.reverse ++ acc) = true →
    (∀ pre post, mid = pre ++ q :: post → closes q (pre.reverse ++ acc) = false) →
    scanClose q acc (mid ++ q :: a) = some (acc.reverse ++ mid, a) := by
  induction mid with
  | nil => intro acc a h1 _; rw [List.nil_append, scanClose_cons, if_pos ⟨rfl, by simpa using h1⟩]; simp
  | cons c mid ih =>
    intro acc a h1 h2
    rw [List.cons_append, scanClose_cons, if_neg, ih (by simpa using h1)]
    · simp
    · intro pre post hp
      have := h2 (c :: pre) post (by simp [hp])
      simpa using this
    · rintro ⟨rfl, hc⟩
      have := h2 [] mid rfl
      rw [List.reverse_nil, List.nil_append] at this
      rw [this] at hc; cases hc

theorem literal_iff {q : Char} (hq : Quote q) {body : Text} : Literal (q :: (body ++ [q])) ↔
    closes q body.reverse = true ∧ ∀ pre post, body = pre ++ q :: post → closes q pre.reverse = false := by
  rcases hq with rfl | rfl
  · have hc : ∀ t, closes '`' t = true := by intro t; rfl
    constructor
    · intro h
      generalize hl : '`' :: (body ++ ['`']) = l at h
      cases h with
      | backtick b hb =>
        simp only [List.cons.injEq, true_and] at hl
        have := List.append_inj_left' hl rfl
        subst this
        refine ⟨hc _, ?_⟩
        intro pre post hp; exact absurd (by rw [hp]; simp) hb
      | double b _ _ => simp at hl
    · rintro ⟨_, h⟩
      refine Literal.backtick body ?_
      intro hm
      obtain ⟨pre, post, hp⟩ := List.append_of_mem hm
      have := h pre post hp
      rw [hc] at this; cases this
  · have hc : ∀ t : Text, closes '"' t.reverse = true ↔ ¬ EndsEscaped t := by
      intro t; rw [← escaped_iff]; simp [closes]
    constructor
    · intro h
      generalize hl : '"' :: (body ++ ['"']) = l at h
      cases h with
      | backtick b hb => simp at hl
      | double b hin hend =>
        simp only [List.cons.injEq, true_and] at hl
        have := List.append_inj_left' hl rfl
        subst this
        refine ⟨(hc _).2 hend, ?_⟩
        intro pre post hp
        have := hin pre post hp
        cases h : closes '"' pre.reverse with
        | false => rfl
        | true => exact absurd this ((hc pre).1 h)
    · rintro ⟨h1, h2⟩
      refine Literal.double body ?_ ((hc _).1 h1)
      intro pre post hp
      have := h2 pre post hp
      refine Classical.byContradiction fun hn => ?_
      rw [(hc pre).2 hn] at this; cases this

theorem literal_form {l : Text} (h : Literal l) : ∃ q body, Quote q ∧ l = q :: (body ++ [q]) := by
  cases h with
  | backtick b _ => exact ⟨'`', b, Or.inl rfl, rfl⟩
  | double b _ _ => exact ⟨'"', b, Or.inr rfl, rfl⟩

/-- A literal at the beginning of the text is what the scan finds. -/
theorem scanClose_iff {q : Char} (hq : Quote q) {rest body after : Text} :
    scanClose q [] rest = some (body, after) ↔ Literal (q :: (body ++ [q])) ∧ rest = body ++ q :: after := by
  rw [literal_iff hq]
  constructor
  · intro h
    obtain ⟨mid, h1, h2, h3, h4⟩ := scanClose_some h
    simp only [List.reverse_nil, List.nil_append, List.append_nil] at h2 h3 h4
    subst h2
    exact ⟨⟨h3, h4⟩, h1⟩
  · rintro ⟨⟨h1, h2⟩, rfl⟩
    have := scanClose_of (q := q) (mid := body) (acc := []) (a := after) (by simpa using h1)
      (by intro pre post hp; simpa using h2 pre post hp)
    simpa using this

theorem firstQuote_some {s pre : Text} {q : Char} {rest : Text} :
    firstQuote s = some (pre, q, rest) ↔ s = pre ++ q :: rest ∧ Plain pre ∧ Quote q := by
  induction s generalizing pre with
  | nil => simp [firstQuote]
  | cons c cs ih =>
    simp only [firstQuote]
    split
    · rename_i hc
      rw [isQuote_iff] at hc
      constructor
      · intro h
        simp only [Option.some.injEq, Prod.mk.injEq] at h
        obtain ⟨rfl, rfl, rfl⟩ := h
        exact ⟨rfl, by intro c hc; simp at hc, hc⟩
      · rintro ⟨h1, h2, h3⟩
        cases pre with
        | nil => simp only [List.nil_append, List.cons.injEq] at h1; simp [h1]
        | cons x pre =>
          simp only [List.cons_append, List.cons.injEq] at h1
          exact absurd (h1.1 ▸ hc) (h2 x (by simp))
    · rename_i hc
      have hc' : ¬ Quote c := fun h => hc (isQuote_iff.2 h)
      constructor
      · intro h
        simp only [Option.map_eq_some_iff, Prod.mk.injEq, Prod.exists] at h
        obtain ⟨p', q', r', h1, rfl, rfl, rfl⟩ := h
        obtain ⟨h2, h3, h4⟩ := ih.1 h1
        refine ⟨by simp [h2], ?_, h4⟩
        intro x hx
        rcases List.mem_cons.1 hx with rfl | hx
        · exact hc'
        · exact h3 x hx
      · rintro ⟨h1, h2, h3⟩
        cases pre with
        | nil => simp only [List.nil_append, List.cons.injEq] at h1; exact absurd (h1.1 ▸ h3) hc'
        | cons x pre =>
          simp only [List.cons_append, List.cons.injEq] at h1
          have := ih.2 ⟨h1.2, fun y hy => h2 y (List.mem_cons_of_mem _ hy), h3⟩
          simp [this, h1.1]

theorem firstQuote_none {s : Text} : firstQuote s = none ↔ Plain s := by
  constructor
  · intro h c hc hq
    obtain ⟨pre, post, rfl⟩ := List.append_of_mem hc
    -- the first quote of the text
    induction pre with
    | nil => simp [firstQuote, isQuote_iff.2 hq] at h
    | cons x pre ih =>
      simp only [List.cons_append, firstQuote] at h
      split at h
      · cases h
      · simp only [Option.map_eq_none_iff] at h; exact ih h (by simp)
  · intro h
    cases hf : firstQuote s with
    | none => rfl
    | some r =>
      obtain ⟨pre, q, rest⟩ := r
      obtain ⟨h1, _, h3⟩ := firstQuote_some.1 hf
      exact absurd h3 (h q (by rw [h1]; simp))

/-- The cut is computed by the loop. -/
theorem protectLoop_cut (fuel : Nat) : ∀ (n : Nat) (s : Text), s.length ≤ fuel → ∃ pieces tail, Cut s pieces tail ∧
    protectLoop fuel n s = (marked token n pieces tail, pieces.map Prod.snd) := by
  induction fuel with
  | zero =>
    intro n s h
    have : s = [] := List.length_eq_zero_iff.1 (by omega)
    subst this
    refine ⟨[], [], Cut.tail ?_, rfl⟩
    intro pre q rest lit after h; simp at h
  | succ fuel ih =>
    intro n s hlen
    unfold protectLoop
    cases hf : firstQuote s with
    | none =>
      refine ⟨[], s, Cut.tail ?_, rfl⟩
      intro pre q rest lit after h _ hq
      exact absurd hq (firstQuote_none.1 hf q (by rw [h]; simp))
    | some r =>
      obtain ⟨pre, q, rest⟩ := r
      obtain ⟨rfl, hp, hq⟩ := firstQuote_some.1 hf
      simp only
      cases hs : scanClose q [] rest with
      | none =>
        refine ⟨[], _, Cut.tail ?_, rfl⟩
        intro pre' q' rest' lit after h hp' hq' hl heq
        have h2 := firstQuote_some.2 ⟨h, hp', hq'⟩
        rw [hf] at h2
        simp only [Option.some.injEq, Prod.mk.injEq] at h2
        obtain ⟨rfl, rfl, rfl⟩ := h2
        obtain ⟨q2, body, _, rfl⟩ := literal_form hl
        simp only [List.cons_append, List.cons.injEq, List.append_assoc] at heq
        obtain ⟨rfl, heq⟩ := heq
        have := (scanClose_iff hq').2 ⟨hl, heq⟩
        rw [hs] at this; cases this
      | some r =>
        obtain ⟨body, after⟩ := r
        obtain ⟨hl, rfl⟩ := (scanClose_iff hq).1 hs
        obtain ⟨pieces, tail, hc, he⟩ := ih (n + 1) after (by simp at hlen ⊢; omega)
        refine ⟨(pre, q :: (body ++ [q])) :: pieces, tail, ?_, ?_⟩
        · have := Cut.literal hp hl hc
          simpa using this
        · simp only [he, marked, List.map_cons]

theorem cut_unique {s : Text} {p₁ p₂ : List (Text × Text)} {t₁ t₂ : Text} (h₁ : Cut s p₁ t₁) (h₂ : Cut s p₂ t₂) :
    p₁ = p₂ ∧ t₁ = t₂ := by
  have key : ∀ {pre lit rest pre' lit' rest' : Text}, Plain pre → Literal lit → Plain pre' → Literal lit' →
      pre ++ lit ++ rest = pre' ++ lit' ++ rest' → pre = pre' ∧ lit = lit' ∧ rest = rest' := by
    intro pre lit rest pre' lit' rest' hp hl hp' hl' he
    obtain ⟨q, b, hq, rfl⟩ := literal_form hl
    obtain ⟨q', b', hq', rfl⟩ := literal_form hl'
    have h1 := (firstQuote_some (rest := (b ++ [q]) ++ rest)).2 ⟨rfl, hp, hq⟩
    have h2 := (firstQuote_some (rest := (b' ++ [q']) ++ rest')).2 ⟨rfl, hp', hq'⟩
    simp only [List.append_assoc, List.cons_append] at he h1 h2
    rw [he, h2] at h1
    simp only [Option.some.injEq, Prod.mk.injEq] at h1
    obtain ⟨rfl, rfl, h3⟩ := h1
    have s1 := (scanClose_iff (after := rest) hq).2 ⟨hl, rfl⟩
    have s2 := (scanClose_iff (after := rest') hq).2 ⟨hl', rfl⟩
    simp only [List.nil_append] at h3
    rw [h3, s1] at s2
    simp only [Option.some.injEq, Prod.mk.injEq] at s2
    obtain ⟨rfl, rfl⟩ := s2
    exact ⟨rfl, rfl, rfl⟩
  induction h₁ generalizing p₂ with
  | tail h =>
    cases h₂ with
    | tail _ => exact ⟨rfl, rfl⟩
    | literal hp hl hc =>
      obtain ⟨q, b, hq, rfl⟩ := literal_form hl
      exact absurd rfl (h _ q ((b ++ [q]) ++ _) _ _ (List.append_assoc _ _ _) hp hq hl)
  | @literal pre lit rest pieces t hp hl hc ih =>
    generalize hs : pre ++ lit ++ rest = s at h₂
    cases h₂ with
    | tail h =>
      obtain ⟨q, b, hq, rfl⟩ := literal_form hl
      subst hs
      exact absurd rfl (h pre q ((b ++ [q]) ++ rest) _ rest (List.append_assoc _ _ _) hp hq hl)
    | literal hp' hl' hc' =>
      obtain ⟨rfl, rfl, rfl⟩ := key hp hl hp' hl' hs
      obtain ⟨rfl, rfl⟩ := ih hc'
      exact ⟨rfl, rfl⟩

/-! ## Restoring -/

theorem matchToken_of_ne {c : Char} {cs : Text} (h : c ≠ '"') : matchToken (c :: cs) = none := by
  unfold matchToken
  split
  · rename_i heq; simp only [List.cons.injEq] at heq; exact absurd heq.1 h
  · rfl

theorem matchToken_token (n : Nat) (s : Text) : matchToken (token n ++ s) = some (n, (token n).length) := by
  have hd : ∀ c ∈ Nat.toDigits 10 n, c.isDigit = true := fun c hc => Nat.isDigit_of_mem_toDigits (by decide) (by decide) hc
  have htw : (Nat.toDigits 10 n ++ '"' :: s).takeWhile Char.isDigit = Nat.toDigits 10 n := by
    rw [List.takeWhile_append_of_pos hd]
    simp
  have : token n ++ s = '"' :: '♠' :: (Nat.toDigits 10 n ++ '"' :: s) := by simp [token]
  rw [this]
  simp only [matchToken, htw]
  rw [if_neg (Nat.toDigits_ne_nil)]
  simp only [List.drop_left', Nat.ofDigitChars_ten_toDigits]
  simp [token]

theorem restoreAux_skip (arr : List Text) (a b : Text) : restoreAux arr a.length (a ++ b) = restoreAux arr 0 b := by
  induction a with
  | nil => rfl
  | cons c cs ih => simpa [restoreAux] using ih

theorem restoreAux_plain (arr : List Text) (pre s : Text) (h : Plain pre) :
    restoreAux arr 0 (pre ++ s) = (restoreAux arr 0 s).map (pre ++ ·) := by
  induction pre with
  | nil => simp
  | cons c pre ih =>
    have hc : c ≠ '"' := fun e => h c (by simp) (Or.inr e)
    simp only [List.cons_append, restoreAux]
    rw [matchToken_of_ne hc]
    simp only
    rw [ih (fun x hx => h x (List.mem_cons_of_mem _ hx))]
    cases restoreAux arr 0 s <;> simp

theorem restoreAux_token (arr : List Text) (n : Nat) (lit s : Text) (h : arr[n]? = some lit) :
    restoreAux arr 0 (token n ++ s) = (restoreAux arr 0 s).map (lit ++ ·) := by
  have hm := matchToken_token n s
  have hskip := restoreAux_skip arr (token n).tail s
  cases ht : token n with
  | nil => simp [token] at ht
  | cons c cs =>
    rw [ht] at hm hskip
    simp only [List.cons_append, List.length_cons, List.tail_cons] at *
    simp only [restoreAux, hm, h, Nat.add_sub_cancel]
    rw [hskip]

/-- No match of the restoring pattern in a text. -/
def NoToken (t : Text) : Prop := ∀ a b, t = a ++ b → matchToken b = none

theorem restoreAux_noToken (arr : List Text) (t : Text) (h : NoToken t) : restoreAux arr 0 t = some t := by
  induction t with
  | nil => rfl
  | cons c t ih =>
    simp only [restoreAux]
    rw [h [] (c :: t) rfl]
    simp only
    rw [ih (fun a b hab => h (c :: a) b (by rw [hab]; rfl))]
    rfl

theorem restore_marked (arr : List Text) : ∀ (pieces : List (Text × Text)) (n : Nat) (tail : Text),
    (∀ p ∈ pieces, Plain p.1) → (∀ i p, pieces[i]? = some p → arr[n + i]? = some p.2) → NoToken tail →
    restoreAux arr 0 (marked token n pieces tail) = some ((pieces.map (fun p => p.1 ++ p.2)).flatten ++ tail) := by
  intro pieces
  induction pieces with
  | nil => intro n tail _ _ ht; simp only [marked, List.map_nil, List.flatten_nil, List.nil_append]; exact restoreAux_noToken arr tail ht
  | cons p pieces ih =>
    obtain ⟨pre, lit⟩ := p
    intro n tail hp ha ht
    simp only [marked, List.append_assoc]
    rw [restoreAux_plain arr pre _ (hp (pre, lit) (by simp)), restoreAux_token arr n lit _ (ha 0 (pre, lit) rfl),
      ih (n + 1) tail (fun x hx => hp x (List.mem_cons_of_mem _ hx)) ?_ ht]
    · simp
    · intro i x hx
      have := ha (i + 1) x (by simpa using hx)
      rw [← this]; congr 1; omega

theorem cut_text {s : Text} {p : List (Text × Text)} {t : Text} (h : Cut s p t) :
    s = (p.map (fun x => x.1 ++ x.2)).flatten ++ t ∧ (∀ x ∈ p, Plain x.1 ∧ Literal x.2) ∧ NoLiteral t := by
  induction h with
  | tail h => exact ⟨by simp, by simp, h⟩
  | literal hp hl _ ih =>
    obtain ⟨h1, h2, h3⟩ := ih
    refine ⟨by simp [← h1], ?_, h3⟩
    intro x hx
    rcases List.mem_cons.1 hx with rfl | hx
    · exact ⟨hp, hl⟩
    · exact h2 x hx

theorem matchToken_some {t : Text} {i len : Nat} (h : matchToken t = some (i, len)) :
    ∃ ds rest, t = '"' :: '♠' :: (ds ++ '"' :: rest) ∧ ds ≠ [] ∧ ∀ c ∈ ds, c.isDigit = true := by
  unfold matchToken at h
  split at h
  · rename_i rest
    simp only at h
    split at h
    · cases h
    · rename_i hne
      split at h
      · rename_i r hr
        refine ⟨rest.takeWhile Char.isDigit, r, ?_, hne, ?_⟩
        · congr 2
          rw [← hr]
          exact (List.prefix_iff_eq_append.1 (List.takeWhile_prefix (l := rest) Char.isDigit)).symm
        · intro c hc
          have h2 := List.all_takeWhile (p := Char.isDigit) (l := rest)
          exact List.all_eq_true.1 h2 c hc
      · cases h
  · cases h

theorem scanClose_none {q : Char} {s : Text} : ∀ {acc : Text}, scanClose q acc s = none →
    ∀ mid a, s = mid ++ q :: a → closes q (mid.reverse ++ acc) = false := by
  induction s with
  | nil => intro acc _ mid a h; simp at h
  | cons c cs ih =>
    intro acc h mid a he
    rw [scanClose_cons] at h
    split at h
    · cases h
    · rename_i hc
      cases mid with
      | nil =>
        simp only [List.nil_append, List.cons.injEq] at he
        cases hcl : closes q acc with
        | false => simpa using hcl
        | true => exact absurd ⟨he.1, hcl⟩ hc
      | cons x mid =>
        simp only [List.cons_append, List.cons.injEq] at he
        have := ih h mid a he.2
        rw [he.1] at this
        simpa using this

/-- A tail whose first quote is not an (unterminated) backtick contains no match of the restoring pattern. -/
theorem noToken_tail {t : Text} (h : NoLiteral t) (hb : ∀ pre rest, t = pre ++ '`' :: rest → ¬ Plain pre) : NoToken t := by
  intro a b hab
  cases hm : matchToken b with
  | none => rfl
  | some r =>
    exfalso
    obtain ⟨i, len⟩ := r
    obtain ⟨ds, after, rfl, hne, hdig⟩ := matchToken_some hm
    cases hf : firstQuote t with
    | none => exact firstQuote_none.1 hf '"' (by rw [hab]; simp) (Or.inr rfl)
    | some r =>
      obtain ⟨pre, q, rest⟩ := r
      obtain ⟨h1, hp, hq⟩ := firstQuote_some.1 hf
      rcases hq with rfl | rfl
      · exact hb pre rest h1 hp
      · -- no double quote of the rest closes the literal, but the one that ends the token would
        have hn : scanClose '"' [] rest = none := by
          cases hs : scanClose '"' [] rest with
          | none => rfl
          | some r =>
            obtain ⟨body, after'⟩ := r
            obtain ⟨hl, he⟩ := (scanClose_iff (Or.inr rfl)).1 hs
            exact absurd (by rw [he]; simp) (h pre '"' rest _ after' h1 hp (Or.inr rfl) hl)
        have hlen : pre.length ≤ a.length := by
          refine Classical.byContradiction fun hgt => ?_
          have hgt' : a.length < pre.length := by omega
          have : ('"' : Char) ∈ pre := by
            have e : pre[a.length]? = some '"' := by
              have e1 : t[a.length]? = some '"' := by rw [hab]; simp
              rw [h1, List.getElem?_append_left hgt'] at e1
              exact e1
            exact List.mem_of_getElem? e
          exact hp _ this (Or.inr rfl)
        -- the text between the first quote and the final quote of the token
        have hd : ∃ c' ds', ds = ds' ++ [c'] ∧ c' ≠ '\\' := by
          refine ⟨ds.getLast hne, ds.dropLast, (List.dropLast_concat_getLast hne).symm, ?_⟩
          intro e
          have := hdig _ (List.getLast_mem hne)
          rw [e] at this; exact absurd this (by decide)
        obtain ⟨c', ds', rfl, hc'⟩ := hd
        have hr : ∃ mid, rest = mid ++ [c'] ++ '"' :: after := by
          have e2 : pre ++ '"' :: rest = (a ++ '"' :: '♠' :: ds') ++ (c' :: '"' :: after) := by
            rw [← h1, hab]; simp
          have e3 : pre ++ ['"'] ++ rest = (a ++ '"' :: '♠' :: ds') ++ (c' :: '"' :: after) := by rw [← e2]; simp
          obtain ⟨m, hm1, hm2⟩ := (List.append_eq_append_iff.1 e3).resolve_right (by
            rintro ⟨m, hm1, hm2⟩
            have hl := congrArg List.length hm1
            simp only [List.length_append, List.length_cons, List.length_nil] at hl
            omega)
          exact ⟨m, by rw [hm2]; simp⟩
        obtain ⟨mid, hr⟩ := hr
        have := scanClose_none hn (mid ++ [c']) after hr
        rw [List.append_nil] at this
        have he : closes '"' (mid ++ [c']).reverse = true := by
          simp [closes, escaped, hc']
        rw [he] at this; cases this

end Verif.Protect
