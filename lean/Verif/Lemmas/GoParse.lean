import Verif.Spec.ExpressionSpec
/-!
# Go's parser reads the expressions of the grammar
-/

namespace Verif.Lemmas
open Verif Translate Spec

/-- What follows does not continue an operand. -/
def Stops (rest : List Token) : Prop := ∀ op r, rest = .sym op :: r → op ≠ c!"." ∧ op ≠ c!"(" ∧ op ≠ c!"["

theorem suffixes_stop {rest : List Token} (h : Stops rest) (n : Nat) (x : Node) : suffixes (n + 1) x rest = some (x, rest) := by
  unfold suffixes
  split
  · next op r =>
    obtain ⟨h1, h2, h3⟩ := h op r rfl
    rw [if_neg h1, if_neg h2, if_neg h3]
  · rfl

theorem more_stop {p : Nat} {rest : List Token} (h : nextPrecedence rest < p) (n : Nat) (x : Node) : more (n + 1) p x rest = some (x, rest) := by
  unfold more
  split
  · next op r => rw [if_pos (.inr h)]
  · rfl

theorem level_precedence : ∀ k ∈ goLevels, precedence k.1 = k.2 ∧ 1 ≤ k.2 ∧ k.2 ≤ 5 ∧ k.1 ≠ c!"." ∧ k.1 ≠ c!"(" ∧ k.1 ≠ c!"[" := by decide +kernel

/-- The first token is not an operator. -/
def Operand (ts : List Token) : Prop := ∃ t r, ts = t :: r ∧ ∀ op, t = .sym op → op = c!"("

theorem operand_append {ts : List Token} (h : Operand ts) (us : List Token) : Operand (ts ++ us) := by
  obtain ⟨t, r, rfl, h⟩ := h
  exact ⟨t, r ++ us, rfl, h⟩

theorem unary_operand {ts : List Token} (h : Operand ts) (n : Nat) : unary (n + 1) ts = primary n ts := by
  obtain ⟨t, r, rfl, h⟩ := h
  unfold unary
  split
  · next op r' he =>
    cases he
    rw [h op rfl, if_neg (by decide), if_neg (by decide)]
  · rfl

/-- What the functions of the parser do with an expression and what follows. -/
structure Reads (p : Nat) (ts : List Token) (x : Node) : Prop where
  operand : p = 7 → Operand ts ∧ ∀ rest n, 8 * (ts ++ rest).length + 1 ≤ n → ∃ k, 8 * rest.length + 1 ≤ k ∧ primary n (ts ++ rest) = suffixes k x rest
  single : 6 ≤ p → ∀ rest n, Stops rest → 8 * (ts ++ rest).length + 2 ≤ n → unary n (ts ++ rest) = some (x, rest)
  whole : ∀ q rest n, q ≤ p → Stops rest → nextPrecedence rest ≤ p → 8 * (ts ++ rest).length + 3 ≤ n →
    ∃ k, 8 * rest.length + 1 ≤ k ∧ binary n q (ts ++ rest) = more k q x rest

theorem reads_single {p : Nat} {ts : List Token} {x : Node}
    (h : ∀ rest n, Stops rest → 8 * (ts ++ rest).length + 2 ≤ n → unary n (ts ++ rest) = some (x, rest)) :
    ∀ q rest n, q ≤ p → Stops rest → nextPrecedence rest ≤ p → 8 * (ts ++ rest).length + 3 ≤ n →
      ∃ k, 8 * rest.length + 1 ≤ k ∧ binary n q (ts ++ rest) = more k q x rest := by
  intro q rest n _ hs _ hn
  obtain ⟨m, rfl⟩ : ∃ m, n = m + 1 := ⟨n - 1, by omega⟩
  refine ⟨m, ?_, ?_⟩
  · rw [List.length_append] at hn
    omega
  · unfold binary
    rw [h rest m hs (by omega)]

theorem reads_operand {ts : List Token} {x : Node} (ho : Operand ts)
    (h : ∀ rest n, 8 * (ts ++ rest).length + 1 ≤ n → ∃ k, 8 * rest.length + 1 ≤ k ∧ primary n (ts ++ rest) = suffixes k x rest) : Reads 7 ts x := by
  have hs : ∀ rest n, Stops rest → 8 * (ts ++ rest).length + 2 ≤ n → unary n (ts ++ rest) = some (x, rest) := by
    intro rest n hs hn
    obtain ⟨m, rfl⟩ : ∃ m, n = m + 1 := ⟨n - 1, by omega⟩
    rw [unary_operand (operand_append ho rest)]
    obtain ⟨k, hk, e⟩ := h rest m (by omega)
    obtain ⟨j, rfl⟩ : ∃ j, k = j + 1 := ⟨k - 1, by omega⟩
    rw [e, suffixes_stop hs]
  exact ⟨fun _ => ⟨ho, h⟩, fun _ => hs, reads_single hs⟩

theorem reads_inner {ts : List Token} {x : Node} (h : Reads 1 ts x) {rest : List Token} (hs : Stops rest) (hp : nextPrecedence rest = 0) {n : Nat}
    (hn : 8 * (ts ++ rest).length + 3 ≤ n) : binary n 1 (ts ++ rest) = some (x, rest) := by
  obtain ⟨k, hk, e⟩ := h.whole 1 rest n (Nat.le_refl _) hs (by omega) hn
  obtain ⟨j, rfl⟩ : ∃ j, k = j + 1 := ⟨k - 1, by omega⟩
  rw [e, more_stop (by omega)]

theorem stops_sym {op : Text} {r : List Token} (h : op ≠ c!"." ∧ op ≠ c!"(" ∧ op ≠ c!"[") : Stops (.sym op :: r) := by
  intro op' r' e
  cases e
  exact h

theorem first_not_close {p : Nat} {ts : List Token} {x : Node} (h : Level p ts x) : ∃ t r, ts = t :: r ∧ t ≠ .sym c!")" := by
  induction h with
  | name t => exact ⟨_, _, rfl, nofun⟩
  | lit t => exact ⟨_, _, rfl, nofun⟩
  | paren _ _ => exact ⟨_, _, rfl, by decide⟩
  | sel t _ ih => obtain ⟨t, r, rfl, h⟩ := ih; exact ⟨t, _, rfl, h⟩
  | index _ _ ih _ => obtain ⟨t, r, rfl, h⟩ := ih; exact ⟨t, _, rfl, h⟩
  | slice _ _ _ ih _ _ => obtain ⟨t, r, rfl, h⟩ := ih; exact ⟨t, _, rfl, h⟩
  | call args _ _ ih _ => obtain ⟨t, r, rfl, h⟩ := ih; exact ⟨t, _, rfl, h⟩
  | ellipsis args _ _ _ ih _ => obtain ⟨t, r, rfl, h⟩ := ih; exact ⟨t, _, rfl, h⟩
  | @unary op _ _ h _ _ =>
    refine ⟨_, _, rfl, fun e => ?_⟩
    have : ∀ op ∈ [c!"+", c!"-", c!"!", c!"^", c!"&"], op ≠ c!")" := by decide
    exact this op h (by simpa using e)
  | star _ _ => exact ⟨_, _, rfl, by decide⟩
  | binary _ _ _ ih _ => obtain ⟨t, r, rfl, h⟩ := ih; exact ⟨t, _, rfl, h⟩
  | up _ _ ih => exact ih

theorem arguments_first {ts : List Token} (h : ∃ t r, ts = t :: r ∧ t ≠ .sym c!")") (n : Nat) : Translate.arguments (n + 1) ts = argument n ts := by
  obtain ⟨t, r, rfl, h⟩ := h
  rw [Translate.arguments.eq_def]
  simp only
  split
  · next op r' he =>
    cases he
    rw [if_neg (fun e => h (by rw [e]))]
  · rfl

/-- The arguments of a call and what closes it. -/
theorem reads_arguments {close : List Token} {e : Bool} (hc : (close = [.sym c!")"] ∧ e = false) ∨ (close = [.sym c!"...", .sym c!")"] ∧ e = true)) :
    ∀ {args : List (List Token × Node)}, args ≠ [] → (∀ a ∈ args, Level 1 a.1 a.2) → (∀ a ∈ args, Reads 1 a.1 a.2) → ∀ (rest : List Token) (n : Nat),
      8 * (commas (args.map (·.1)) ++ (close ++ rest)).length + 5 ≤ n →
      Translate.arguments n (commas (args.map (·.1)) ++ (close ++ rest)) = some (args.map (·.2), e, rest) := by
  intro args
  induction args with
  | nil => intro h; exact absurd rfl h
  | cons a args ih =>
    intro _ hl hr rest n hn
    obtain ⟨m, rfl⟩ : ∃ m, n = m + 2 := ⟨n - 2, by omega⟩
    have ha := hl a (List.mem_cons_self ..)
    obtain ⟨t, r, ht, hne⟩ := first_not_close ha
    cases args with
    | nil =>
      have e1 : commas ([a].map (·.1)) = a.1 := rfl
      rw [e1] at hn ⊢
      rw [arguments_first ⟨t, r ++ (close ++ rest), by rw [ht]; rfl, hne⟩, argument.eq_def]
      simp only
      rcases hc with ⟨rfl, rfl⟩ | ⟨rfl, rfl⟩
      · rw [List.singleton_append] at hn ⊢
        rw [reads_inner (hr a (List.mem_cons_self ..)) (stops_sym (by decide)) rfl (by omega)]
        simp only
        rw [if_neg (by decide), if_pos trivial]
        rfl
      · rw [List.cons_append, List.singleton_append] at hn ⊢
        rw [reads_inner (hr a (List.mem_cons_self ..)) (stops_sym (by decide)) rfl (by omega)]
        simp only
        rw [if_neg (by decide), if_neg (by decide), if_pos trivial]
        rfl
    | cons b args =>
      have e1 : commas ((a :: b :: args).map (·.1)) = a.1 ++ .sym c!"," :: commas ((b :: args).map (·.1)) := rfl
      rw [e1, List.append_assoc, List.cons_append] at hn ⊢
      rw [arguments_first ⟨t, r ++ .sym c!"," :: (commas ((b :: args).map (·.1)) ++ (close ++ rest)), by rw [ht]; rfl, hne⟩, argument.eq_def]
      simp only
      rw [reads_inner (hr a (List.mem_cons_self ..)) (stops_sym (by decide)) rfl (by omega)]
      simp only
      rw [if_pos trivial, ih (by simp) (fun x hx => hl x (List.mem_cons_of_mem _ hx)) (fun x hx => hr x (List.mem_cons_of_mem _ hx)) rest m]
      · rfl
      · rw [List.length_append, List.length_cons] at hn
        omega

theorem arguments_none (rest : List Token) (n : Nat) : Translate.arguments (n + 1) (.sym c!")" :: rest) = some ([], false, rest) := by
  rw [Translate.arguments.eq_def]
  rfl

/-- One more suffix. -/
theorem reads_suffix {ts us : List Token} {x y : Node} (h : Reads 7 ts x)
    (step : ∀ rest n, 8 * (us ++ rest).length + 1 ≤ n → ∃ k, 8 * rest.length + 1 ≤ k ∧ suffixes n x (us ++ rest) = suffixes k y rest) : Reads 7 (ts ++ us) y := by
  obtain ⟨ho, hp⟩ := h.operand rfl
  refine reads_operand (operand_append ho us) fun rest n hn => ?_
  rw [List.append_assoc] at hn ⊢
  obtain ⟨k, hk, e⟩ := hp (us ++ rest) n hn
  obtain ⟨j, hj, e'⟩ := step rest k hk
  exact ⟨j, hj, by rw [e, e']⟩

theorem reads {p : Nat} {ts : List Token} {x : Node} (h : Level p ts x) : Reads p ts x := by
  induction h with
  | name t =>
    refine reads_operand ⟨_, _, rfl, fun op e => nomatch e⟩ fun rest n hn => ?_
    obtain ⟨m, rfl⟩ : ∃ m, n = m + 1 := ⟨n - 1, by omega⟩
    refine ⟨m, by simp at hn; omega, ?_⟩
    rw [primary.eq_def]
    rfl
  | lit t =>
    refine reads_operand ⟨_, _, rfl, fun op e => nomatch e⟩ fun rest n hn => ?_
    obtain ⟨m, rfl⟩ : ∃ m, n = m + 1 := ⟨n - 1, by omega⟩
    refine ⟨m, by simp at hn; omega, ?_⟩
    rw [primary.eq_def]
    rfl
  | @paren ts x _ ih =>
    refine reads_operand ⟨_, _, rfl, fun op e => by cases e; rfl⟩ fun rest n hn => ?_
    obtain ⟨m, rfl⟩ : ∃ m, n = m + 1 := ⟨n - 1, by omega⟩
    refine ⟨m, by simp at hn; omega, ?_⟩
    rw [primary.eq_def]
    simp only [List.cons_append, List.append_assoc, List.nil_append]
    rw [if_pos trivial, reads_inner ih (stops_sym (by decide)) rfl (by simp at hn ⊢; omega)]
    simp
  | @sel ts x t _ ih =>
    refine reads_suffix ih fun rest n hn => ?_
    obtain ⟨m, rfl⟩ : ∃ m, n = m + 1 := ⟨n - 1, by omega⟩
    refine ⟨m, by simp at hn; omega, ?_⟩
    rw [suffixes.eq_def]
    simp
  | @index ts x us i _ _ ih1 ih2 =>
    refine reads_suffix ih1 fun rest n hn => ?_
    obtain ⟨m, rfl⟩ : ∃ m, n = m + 1 := ⟨n - 1, by omega⟩
    refine ⟨m, by simp at hn; omega, ?_⟩
    rw [suffixes.eq_def]
    simp only [List.cons_append, List.append_assoc, List.nil_append]
    rw [if_neg (by decide), if_neg (by decide), if_pos trivial, reads_inner ih2 (stops_sym (by decide)) rfl (by simp at hn ⊢; omega)]
    simp
  | @slice ts x us i vs j _ _ _ ih1 ih2 ih3 =>
    refine reads_suffix ih1 fun rest n hn => ?_
    obtain ⟨m, rfl⟩ : ∃ m, n = m + 1 := ⟨n - 1, by omega⟩
    refine ⟨m, by simp at hn; omega, ?_⟩
    rw [suffixes.eq_def]
    simp only [List.cons_append, List.append_assoc, List.nil_append]
    rw [if_neg (by decide), if_neg (by decide), if_pos trivial, reads_inner ih2 (stops_sym (by decide)) rfl (by simp at hn ⊢; omega)]
    simp only
    rw [if_neg (by decide), if_pos trivial, reads_inner ih3 (stops_sym (by decide)) rfl (by simp at hn ⊢; omega)]
    simp
  | @call ts f args _ hl ih1 ih2 =>
    refine reads_suffix ih1 fun rest n hn => ?_
    obtain ⟨m, rfl⟩ : ∃ m, n = m + 1 := ⟨n - 1, by omega⟩
    refine ⟨m, by simp at hn; omega, ?_⟩
    rw [suffixes.eq_def]
    simp only [List.cons_append, List.append_assoc, List.nil_append]
    rw [if_neg (by decide), if_pos trivial]
    cases args with
    | nil =>
      obtain ⟨k, rfl⟩ : ∃ k, m = k + 1 := ⟨m - 1, by simp at hn; omega⟩
      have : commas (List.map (·.1) ([] : List (List Token × Node))) ++ .sym c!")" :: rest = .sym c!")" :: rest := rfl
      rw [this, arguments_none]
      rfl
    | cons a args =>
      have := reads_arguments (close := [.sym c!")"]) (e := false) (.inl ⟨rfl, rfl⟩) (args := a :: args) (by simp) hl ih2 rest m (by simp at hn ⊢; omega)
      rw [List.singleton_append] at this
      rw [this]
  | @ellipsis ts f args _ hne hl ih1 ih2 =>
    refine reads_suffix ih1 fun rest n hn => ?_
    obtain ⟨m, rfl⟩ : ∃ m, n = m + 1 := ⟨n - 1, by omega⟩
    refine ⟨m, by simp at hn; omega, ?_⟩
    rw [suffixes.eq_def]
    simp only [List.cons_append, List.append_assoc, List.nil_append]
    rw [if_neg (by decide), if_pos trivial]
    have := reads_arguments (close := [.sym c!"...", .sym c!")"]) (e := true) (.inr ⟨rfl, rfl⟩) hne hl ih2 rest m (by simp at hn ⊢; omega)
    rw [List.cons_append, List.singleton_append] at this
    rw [this]
  | @unary op ts x hop _ ih =>
    have hs : ∀ rest n, Stops rest → 8 * ((.sym op :: ts) ++ rest).length + 2 ≤ n → unary n ((.sym op :: ts) ++ rest) = some (.unary op x, rest) := by
      intro rest n hs hn
      obtain ⟨m, rfl⟩ : ∃ m, n = m + 1 := ⟨n - 1, by omega⟩
      have hop' : op ∈ [c!"+", c!"-", c!"!", c!"^", c!"&", c!"~"] := by
        have : ∀ op ∈ [c!"+", c!"-", c!"!", c!"^", c!"&"], op ∈ [c!"+", c!"-", c!"!", c!"^", c!"&", c!"~"] := by decide
        exact this op hop
      rw [List.cons_append, Translate.unary.eq_def]
      simp only
      rw [if_pos hop', ih.single (Nat.le_refl _) rest m hs (by simp at hn ⊢; omega)]
      rfl
    exact ⟨fun h => absurd h (by decide), fun _ => hs, reads_single hs⟩
  | @star ts x _ ih =>
    have hs : ∀ rest n, Stops rest → 8 * ((.sym c!"*" :: ts) ++ rest).length + 2 ≤ n → unary n ((.sym c!"*" :: ts) ++ rest) = some (.star x, rest) := by
      intro rest n hs hn
      obtain ⟨m, rfl⟩ : ∃ m, n = m + 1 := ⟨n - 1, by omega⟩
      rw [List.cons_append, Translate.unary.eq_def]
      simp only
      rw [if_neg (by decide), if_pos trivial, ih.single (Nat.le_refl _) rest m hs (by simp at hn ⊢; omega)]
      rfl
    exact ⟨fun h => absurd h (by decide), fun _ => hs, reads_single hs⟩
  | @binary op p ts x us y hop h1 h2 ih1 ih2 =>
    obtain ⟨hp, hp1, hp5, hstop⟩ := level_precedence _ hop
    refine ⟨fun h => absurd h (by simp only at hp5; omega), fun h => absurd h (by simp only at hp5; omega), fun q rest n hq hs hnext hn => ?_⟩
    simp only at hp hp1 hp5 hstop
    rw [List.append_assoc, List.cons_append] at hn ⊢
    obtain ⟨k, hk, e⟩ := ih1.whole q (.sym op :: (us ++ rest)) n hq (stops_sym hstop) (Nat.le_of_eq hp) hn
    obtain ⟨j, rfl⟩ : ∃ j, k = j + 1 := ⟨k - 1, by omega⟩
    obtain ⟨i, hi, e'⟩ := ih2.whole (p + 1) rest j (Nat.le_refl _) hs (by omega) (by simp at hk ⊢; omega)
    obtain ⟨l, rfl⟩ : ∃ l, i = l + 1 := ⟨i - 1, by omega⟩
    refine ⟨j, by simp at hk; omega, ?_⟩
    rw [e, more.eq_def]
    simp only
    rw [if_neg (by omega), hp, e', more_stop (by omega)]
  | @up p ts x hp h ih =>
    refine ⟨fun h => absurd h (by omega), fun h => ?_, fun q rest n hq hs hnext hn => ?_⟩
    · exact ih.single (by omega)
    · exact ih.whole q rest n (by omega) hs (by omega) hn

/-- Go's parser reads an expression of the grammar as the tree that the grammar gives it. -/
theorem parseTokens_level {ts : List Token} {x : Node} (h : Level 1 ts x) : parseTokens ts = some x := by
  have := reads_inner (reads h) (rest := []) (by intro op r e; cases e) rfl (n := 8 * ts.length + 8) (by simp)
  rw [List.append_nil] at this
  unfold parseTokens
  rw [this]

end Verif.Lemmas
