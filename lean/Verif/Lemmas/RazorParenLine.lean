import Verif.Lemmas.RazorParenRest
/-!
# An expression and what follows its parenthesis are not an expression
-/

namespace Verif.Lemmas
open Verif Regex Spec Engine Razor Prepare _root_.Verif.Insert

theorem rewrite_close {o : Orders} (ho : SomeOrder o) (a b : Text) : ∃ B, rewrite o (a ++ ')' :: b) = rewrite o a ++ ')' :: B := by
  have h1 : ∀ k ∈ reserved, k.1 ≠ [] ∧ ')' ∉ k.1 := by decide +kernel
  have h2 : ∀ k ∈ Prepare.signs, k.1 ≠ [] ∧ ')' ∉ k.1 := by decide +kernel
  have h3 : ∀ k ∈ wordOperators, k.1 ≠ [] ∧ ')' ∉ k.1 := by decide +kernel
  have e1 := each_around (order := o.words) (fun k hk => (h1 k (ho.words.subset hk)).1) (X := [')']) (by simp)
    (fun k hk c hc => by rw [List.mem_singleton.mp hc]; exact (h1 k (ho.words.subset hk)).2)
  have e2 := each_around (order := o.signs) (fun k hk => (h2 k (ho.signs.subset hk)).1) (X := [')']) (by simp)
    (fun k hk c hc => by rw [List.mem_singleton.mp hc]; exact (h2 k (ho.signs.subset hk)).2)
  have e3 := each_around (order := o.operators) (fun k hk => (h3 k (ho.operators.subset hk)).1) (X := [')']) (by simp)
    (fun k hk c hc => by rw [List.mem_singleton.mp hc]; exact (h3 k (ho.operators.subset hk)).2)
  simp only [List.cons_append, List.nil_append] at e1 e2 e3
  have e4 := fun A B => index_around (g := [')']) (by decide) (by decide) (A := A) (.inl (by decide)) B
  simp only [List.cons_append, List.nil_append] at e4
  unfold rewrite
  rw [e1, dots_close (.inl rfl), e2, e3, e4]
  exact ⟨_, rfl⟩

theorem prepare_close {o : Orders} (ho : SomeOrder o) {a b : Text} (ha : Closed a) (h1 : '♠' ∉ a) (h2 : '♠' ∉ b) :
    ∃ A B, prepare o a = some A ∧ prepare o (a ++ ')' :: b) = some (A ++ ')' :: B) := by
  obtain ⟨pieces, tail, hc, hp⟩ := ha
  have hs : '♠' ∉ a ++ ([')'] ++ b) := by simp [h1, h2]
  have hx : Plain [')'] := by decide
  obtain ⟨qs, t, hcb, _⟩ := Protect.protectLoop_cut b.length 0 b (Nat.le_refl _)
  cases hcb with
  | tail hn =>
    obtain ⟨B, hB⟩ := rewrite_close ho tail b
    refine ⟨_, B, prepare_cut ho h1 hc, ?_⟩
    have hcut : Spec.Cut (tail ++ ([')'] ++ b)) [] (tail ++ ([')'] ++ b)) := .tail (noLiteral_plain hp (noLiteral_plain hx hn))
    show prepare o (a ++ ([')'] ++ b)) = _
    rw [prepare_cut ho hs (cut_more hc hcut)]
    simp [hB]
  | @literal pre lit rest ps t hpre hl hrest =>
    obtain ⟨B, hB⟩ := rewrite_close ho tail pre
    refine ⟨_, B ++ (Text.replaceAll ['@'] atSign lit ++ ((ps.map fun p => rewrite o p.1 ++ Text.replaceAll ['@'] atSign p.2).flatten ++ rewrite o t)), prepare_cut ho h1 hc, ?_⟩
    have hcut : Spec.Cut (tail ++ ([')'] ++ (pre ++ lit ++ rest))) ((tail ++ ([')'] ++ pre), lit) :: ps) t := by
      have := Spec.Cut.literal (plain_append hp (plain_append hx hpre)) hl hrest
      simpa using this
    show prepare o (a ++ ([')'] ++ (pre ++ lit ++ rest))) = _
    rw [prepare_cut ho hs (cut_more hc hcut)]
    simp [hB]

theorem scan_close {letter : Char → Bool} (hl : SignLetters letter) (rest : Text) : Translate.tokens letter (')' :: rest) = (Translate.tokens letter rest).map (.sym c!")" :: ·) := by
  have hp : letter ')' = false := hl.1.1 _ (by decide)
  refine scan_token (t := .sym c!")") ?_ ?_
  · show Translate.token letter (')' :: rest) = _
    simp [Translate.token, hp, Translate.symbols, Text.hasPrefix, Text.dropPrefix?]
  · rintro c ⟨⟩
    decide

/-- A text that goes on after the parenthesis of an expression is not an expression. -/
theorem inserted_more {letter : Char → Bool} (hl : SignLetters letter) {o : Orders} (ho : SomeOrder o) {s z : Text} {e : Expr} (h : Insertable letter s e) (hz : '♠' ∉ z) :
    inserted letter o (s ++ ')' :: z) = none := by
  obtain ⟨hf, _, _, m, ts, t, g1, _, _, g4, g5, g6⟩ := source_ready hl ho h.source h.marks
  obtain ⟨A, B, p1, p2⟩ := prepare_close ho hf.closed hf.spade hz
  rw [g1] at p1
  cases p1
  simp only [inserted, p2, Translate.parse, Option.bind_eq_bind, Option.bind_some]
  rw [g4 _ (follow_after (follow_char hl (by decide)) _), scan_close hl]
  cases Translate.tokens letter B with
  | none => rfl
  | some us =>
    simp only [Option.map_some, Option.bind_some]
    have : Translate.parseTokens (ts ++ .sym c!")" :: us) = none := by
      have := reads_inner (reads g5) (rest := .sym c!")" :: us) (by intro op r e; cases e; decide) rfl (n := 8 * (ts ++ .sym c!")" :: us).length + 8) (by omega)
      unfold Translate.parseTokens
      rw [this]
    rw [this]
    rfl

end Verif.Lemmas
