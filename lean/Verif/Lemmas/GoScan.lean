import Verif.Lemmas.GoParse
import Verif.Lemmas.RazorPrepareName
/-!
# Go's scanner
-/

namespace Verif.Lemmas
open Verif Text Translate Spec

theorem quoteEnd_more (q : Char) : ∀ (s : Text) (n m : Nat), quoteEnd q n s = some m → n < m := by
  intro s
  induction hs : s.length using Nat.strongRecOn generalizing s with
  | _ len ih =>
    intro n m h
    cases s with
    | nil => cases h
    | cons c s =>
      unfold quoteEnd at h
      split at h
      · cases h; omega
      · split at h
        · exact Nat.lt_of_succ_lt (ih s.length (by rw [← hs]; simp) s rfl _ _ h)
        · split at h
          · cases h
          · split at h
            · split at h
              · cases h
              · next d s =>
                split at h
                · exact Nat.lt_of_succ_lt (Nat.lt_of_succ_lt (ih s.length (by rw [← hs]; simp; omega) s rfl _ _ h))
                · cases h
            · exact Nat.lt_of_succ_lt (ih s.length (by rw [← hs]; simp) s rfl _ _ h)

theorem symbols_filled : ∀ t ∈ symbols, t ≠ [] := by decide

/-- A token has a character. -/
theorem token_filled {letter : Char → Bool} {s : Text} {t : Token} (h : Translate.token letter s = some t) : 0 < t.text.length := by
  cases s with
  | nil => cases h
  | cons c r =>
    unfold Translate.token at h
    simp only at h
    split at h
    · next hc =>
      split at h
      · cases h
      · cases h
        have : Translate.nameChar letter c = true := by
          simp only [Bool.or_eq_true, beq_iff_eq] at hc
          rcases hc with hc | hc <;> simp [Translate.nameChar, hc]
        simp [Token.text, this]
    · split at h
      · next hd =>
        cases h
        have : ((c :: r).takeWhile Char.isDigit) = c :: r.takeWhile Char.isDigit := by simp [hd]
        simp only [Token.text, number, this]
        split <;> simp
      · split at h
        · simp only [Option.map_eq_some_iff] at h
          obtain ⟨n, hn, rfl⟩ := h
          have := quoteEnd_more _ _ _ _ hn
          simp only [Token.text, List.length_take, List.length_cons]
          omega
        · split at h
          · cases h
          · simp only [Option.map_eq_some_iff] at h
            obtain ⟨x, hx, rfl⟩ := h
            exact List.length_pos_iff.mpr (symbols_filled x (List.mem_of_find?_eq_some hx))

theorem scanFrom_enough (letter : Char → Bool) : ∀ (n : Nat) (s : Text), s.length ≤ n → scanFrom letter n s = tokens letter s := by
  have key : ∀ (n m : Nat) (s : Text), s.length ≤ n → s.length ≤ m → scanFrom letter n s = scanFrom letter m s := by
    intro n
    induction n with
    | zero =>
      intro m s hn _
      have : s = [] := List.length_eq_zero_iff.mp (Nat.le_zero.mp hn)
      subst this
      cases m <;> rfl
    | succ n ih =>
      intro m s hn hm
      cases s with
      | nil => cases m <;> rfl
      | cons c s =>
        cases m with
        | zero => simp at hm
        | succ m =>
          simp only [List.length_cons, Nat.succ_le_succ_iff] at hn hm
          rw [scanFrom, scanFrom]
          split
          · exact ih m s hn hm
          · split
            · rfl
            · next t ht =>
              have := token_filled ht
              rw [ih m]
              · simp; omega
              · simp; omega
  intro n s hn
  exact key n s.length s hn (Nat.le_refl _)

@[simp] theorem scan_nil (letter : Char → Bool) : tokens letter [] = some [] := rfl

theorem scan_space (letter : Char → Bool) (s : Text) : tokens letter (' ' :: s) = tokens letter s := by
  rw [tokens, List.length_cons, scanFrom, if_pos (.inl rfl), scanFrom_enough _ _ _ (Nat.le_refl _)]

theorem scan_spaces (letter : Char → Bool) {l : Text} (h : ∀ c ∈ l, c = ' ') (s : Text) : tokens letter (l ++ s) = tokens letter s := by
  induction l with
  | nil => rfl
  | cons c l ih =>
    rw [h c (List.mem_cons_self ..), List.cons_append, scan_space, ih fun c hc => h c (List.mem_cons_of_mem _ hc)]

theorem scan_token {letter : Char → Bool} {t : Token} {s : Text} (ht : Translate.token letter (t.text ++ s) = some t)
    (hb : ∀ c, (t.text ++ s).head? = some c → c ≠ ' ' ∧ c ≠ '\t' ∧ c ≠ '\r') : tokens letter (t.text ++ s) = (tokens letter s).map (t :: ·) := by
  have hp := token_filled ht
  cases hs : t.text ++ s with
  | nil =>
    have := congrArg List.length hs
    simp at this
    rw [this.1] at hp
    simp at hp
  | cons c r =>
    rw [hs] at ht
    obtain ⟨h1, h2, h3⟩ := hb c (by rw [hs]; rfl)
    rw [tokens, List.length_cons, scanFrom, if_neg (by simp [h1, h2, h3]), ht]
    simp only
    rw [← hs, List.drop_left, scanFrom_enough]
    have := congrArg List.length hs
    simp at this
    omega

/-! ## The tokens -/

/-- What follows does not continue a name or a number. -/
def Follow (letter : Char → Bool) (rest : Text) : Prop := ∀ c, rest.head? = some c → Translate.nameChar letter c = false ∧ c ≠ '.'

theorem takeWhile_until {p : Char → Bool} {w rest : Text} (hw : ∀ c ∈ w, p c = true) (hr : ∀ c, rest.head? = some c → p c = false) :
    (w ++ rest).takeWhile p = w := by
  induction w with
  | nil =>
    cases rest with
    | nil => rfl
    | cons c r => simp [hr c rfl]
  | cons c w ih =>
    rw [List.cons_append, List.takeWhile_cons, if_pos (hw c (List.mem_cons_self ..)), ih fun c hc => hw c (List.mem_cons_of_mem _ hc)]

theorem keywords_same : keywords = goKeywords := rfl

theorem letter_blank {letter : Char → Bool} (hl : SignLetters letter) : letter ' ' = false ∧ letter '\t' = false ∧ letter '\r' = false := by
  refine ⟨?_, ?_, ?_⟩ <;> exact (hl.1.1 _ (by decide)).trans (by decide)

theorem scan_name {letter : Char → Bool} (hl : SignLetters letter) {w rest : Text} (hw : GoName letter w)
    (hr : ∀ c, rest.head? = some c → Translate.nameChar letter c = false) : tokens letter (w ++ rest) = (tokens letter rest).map (.name w :: ·) := by
  obtain ⟨⟨c, t, rfl, hc⟩, h2, h3⟩ := hw
  have hcc : (letter c || c == '_') = true := by simpa using hc
  refine scan_token (t := .name (c :: t)) ?_ ?_
  · show Translate.token letter (c :: (t ++ rest)) = _
    unfold Translate.token
    simp only
    rw [if_pos hcc]
    have : (c :: (t ++ rest)).takeWhile (Translate.nameChar letter) = c :: t := takeWhile_until (w := c :: t) h2 hr
    rw [this, keywords_same, if_neg h3]
  · intro d hd
    cases hd
    obtain ⟨b1, b2, b3⟩ := letter_blank hl
    rcases hc with hc | rfl
    · refine ⟨?_, ?_, ?_⟩ <;> rintro rfl
      · rw [b1] at hc; cases hc
      · rw [b2] at hc; cases hc
      · rw [b3] at hc; cases hc
    · decide

theorem digit_letter {letter : Char → Bool} (hl : SignLetters letter) {c : Char} (h : c.isDigit = true) : letter c = false ∧ c ≠ '_' ∧ c ≠ ' ' ∧ c ≠ '\t' ∧ c ≠ '\r' := by
  have hd : 48 ≤ c.toNat ∧ c.toNat ≤ 57 := by
    simp only [Char.isDigit, Bool.and_eq_true, decide_eq_true_eq] at h
    exact ⟨UInt32.le_iff_toNat_le.mp h.1, UInt32.le_iff_toNat_le.mp h.2⟩
  refine ⟨?_, ?_, ?_, ?_, ?_⟩
  · rw [hl.1.1 c (by omega)]
    simp only [Char.isAlpha, Char.isUpper, Char.isLower, Bool.or_eq_false_iff]
    constructor <;> apply Bool.eq_false_iff.mpr <;> intro hh <;> simp [UInt32.le_iff_toNat_le] at hh <;> omega
  all_goals rintro rfl; revert hd; decide

theorem scan_number {letter : Char → Bool} (hl : SignLetters letter) {w rest : Text} (hw : w ≠ []) (hd : ∀ c ∈ w, c.isDigit = true) (hr : Follow letter rest) :
    tokens letter (w ++ rest) = (tokens letter rest).map (.lit w :: ·) := by
  obtain ⟨c, t, rfl⟩ := List.exists_cons_of_ne_nil hw
  have hc := hd c (List.mem_cons_self ..)
  obtain ⟨h1, h2, h3, h4, h5⟩ := digit_letter hl hc
  refine scan_token (t := .lit (c :: t)) ?_ ?_
  · show Translate.token letter (c :: (t ++ rest)) = _
    unfold Translate.token
    simp only
    rw [if_neg (by simp [h1, h2]), if_pos hc]
    have : (c :: (t ++ rest)).takeWhile Char.isDigit = c :: t := by
      refine takeWhile_until (w := c :: t) hd fun d hd => ?_
      have := (hr d hd).1
      simp only [Translate.nameChar, Bool.or_eq_false_iff] at this
      exact this.1.2
    have hdrop : (c :: (t ++ rest)).drop (c :: t).length = rest := by
      have := List.drop_left (l₁ := c :: t) (l₂ := rest)
      exact this
    unfold number
    rw [this]
    simp only
    rw [hdrop]
    split
    · next r => exact absurd rfl (hr '.' rfl).2
    · rfl
  · intro d hd
    cases hd
    exact ⟨h3, h4, h5⟩

theorem quoteEnd_plain {q : Char} {body : Text} (h : ∀ c ∈ body, c ≠ q ∧ c ≠ '\\' ∧ c ≠ '\n') (rest : Text) : ∀ n, quoteEnd q n (body ++ q :: rest) = some (n + body.length + 1) := by
  induction body with
  | nil =>
    intro n
    rw [List.nil_append, quoteEnd.eq_def]
    simp
  | cons c body ih =>
    intro n
    obtain ⟨h1, h2, h3⟩ := h c (List.mem_cons_self ..)
    rw [List.cons_append, quoteEnd.eq_def]
    simp only
    rw [if_neg h1, ih (fun c hc => h c (List.mem_cons_of_mem _ hc)), if_neg h3, if_neg h2]
    simp only [ite_self, List.length_cons]
    congr 1
    omega

theorem scan_quoted {letter : Char → Bool} (hl : SignLetters letter) {q : Char} (hq : q = '"' ∨ q = '`') {body : Text} (h : ∀ c ∈ body, c ≠ q ∧ c ≠ '\\' ∧ c ≠ '\n') (rest : Text) :
    tokens letter (q :: (body ++ [q]) ++ rest) = (tokens letter rest).map (.lit (q :: (body ++ [q])) :: ·) := by
  have hlq : letter q = false ∧ q ≠ '_' ∧ q.isDigit = false ∧ q ≠ ' ' ∧ q ≠ '\t' ∧ q ≠ '\r' := by
    rcases hq with rfl | rfl
    · exact ⟨(hl.1.1 _ (by decide)).trans (by decide), by decide⟩
    · exact ⟨(hl.1.1 _ (by decide)).trans (by decide), by decide⟩
  obtain ⟨h1, h2, h3, h4, h5, h6⟩ := hlq
  refine scan_token (t := .lit (q :: (body ++ [q]))) ?_ ?_
  · show Translate.token letter (q :: (body ++ [q] ++ rest)) = _
    unfold Translate.token
    simp only
    have e : body ++ [q] ++ rest = body ++ q :: rest := by simp
    rw [if_neg (by simp [h1, h2]), if_neg (by simp [h3]), if_pos hq, e, quoteEnd_plain h]
    simp only [Option.map_some, Option.some.injEq, Token.lit.injEq]
    have e' : q :: (body ++ q :: rest) = (q :: (body ++ [q])) ++ rest := by simp
    rw [e', List.take_left']
    simp
    omega
  · intro d hd
    cases hd
    exact ⟨h4, h5, h6⟩

/-- The symbols of the expressions. -/
def exprSymbols : List Text := goLevels.map (·.1) ++ [c!"!", c!"(", c!")", c!",", c!"[", c!"]", c!":"]

theorem sign_alone : ∀ g ∈ c!"." :: exprSymbols, (symbols.find? fun t => hasPrefix t g) = some g ∧ hasPrefix c!"//" g = false ∧ hasPrefix c!"/*" g = false := by decide +kernel

theorem sign_chars : ∀ g ∈ c!"." :: exprSymbols, g ≠ [] ∧ ∀ c ∈ g, c.toNat < 128 ∧ c.isAlpha = false ∧ c.isDigit = false ∧ c ∉ c!"_ \t\r\"`" := by decide +kernel

theorem symbol_chars : ∀ g ∈ exprSymbols, g ≠ [] ∧ ∀ c ∈ g, c.toNat < 128 ∧ c.isAlpha = false ∧ c.isDigit = false ∧ c ∉ c!"_ \t\r\"`" :=
  fun g hg => sign_chars g (List.mem_cons_of_mem _ hg)

theorem apart_delimiter {g : Text} (hg : g ∈ [c!"(", c!")", c!",", c!"[", c!"]"]) (rest : Text) : StaysShort g rest := by
  intro c _ t ht hp
  have : ∀ g ∈ [c!"(", c!")", c!",", c!"[", c!"]"], ∀ t ∈ symbols ++ [c!"//", c!"/*"], g.isPrefixOf t = true → t.length ≤ 1 := by decide +kernel
  have h1 := this g hg t ht (List.isPrefixOf_iff_prefix.mpr ((List.prefix_append g [c]).trans hp))
  have h2 := hp.length_le
  have h3 : 0 < g.length := (by decide : ∀ g ∈ [c!"(", c!")", c!",", c!"[", c!"]"], 0 < g.length) g hg
  simp at h2
  omega

theorem apart_char {g : Text} {rest : Text} {c : Char} (hr : rest.head? = some c) (hc : c ∉ c!"=<>+-*/&|^.:") (hg : g ≠ []) : StaysShort g rest := by
  intro d hd t ht hp
  rw [hr] at hd
  cases hd
  have : ∀ t ∈ symbols ++ [c!"//", c!"/*"], ∀ d ∈ t.drop 1, d ∈ c!"=<>+-*/&|^.:" := by decide +kernel
  obtain ⟨a, u, rfl⟩ := List.exists_cons_of_ne_nil hg
  refine hc (this t ht c ?_)
  obtain ⟨v, rfl⟩ := hp
  simp

theorem symbol_prefix {g t rest : Text} (ht : t ∈ symbols ++ [c!"//", c!"/*"]) (hr : StaysShort g rest) :
    hasPrefix t (g ++ rest) = hasPrefix t g := by
  cases h : hasPrefix t g with
  | true => exact hasPrefix_iff.mpr ((hasPrefix_iff.mp h).trans (List.prefix_append _ _))
  | false =>
    cases h' : hasPrefix t (g ++ rest) with
    | false => rfl
    | true =>
      exfalso
      rcases List.prefix_or_prefix_of_prefix (hasPrefix_iff.mp h') (List.prefix_append g rest) with hp | ⟨u, rfl⟩
      · rw [hasPrefix_iff.mpr hp] at h
        cases h
      · have hp := hasPrefix_iff.mp h'
        cases u with
        | nil =>
          rw [List.append_nil] at h
          rw [hasPrefix_iff.mpr (List.prefix_refl g)] at h
          cases h
        | cons d u =>
          refine hr d ?_ _ ht ⟨u, by simp⟩
          obtain ⟨v, rfl⟩ := (List.prefix_append_right_inj g).mp hp
          rfl

theorem tokens_sign {letter : Char → Bool} (hl : SignLetters letter) {g rest : Text} (hg : g ∈ c!"." :: exprSymbols) (hr : StaysShort g rest) :
    tokens letter (g ++ rest) = (tokens letter rest).map (.sym g :: ·) := by
  obtain ⟨hne, hc⟩ := sign_chars g hg
  obtain ⟨h1, h2, h3⟩ := sign_alone g hg
  have e1 : (symbols.find? fun t => hasPrefix t (g ++ rest)) = some g := by
    rw [← h1]
    have : ∀ l : List Text, (∀ t ∈ l, t ∈ symbols) → (l.find? fun t => hasPrefix t (g ++ rest)) = l.find? fun t => hasPrefix t g := by
      intro l
      induction l with
      | nil => intro _; rfl
      | cons t l ih =>
        intro hl
        rw [List.find?_cons, List.find?_cons, symbol_prefix (List.mem_append_left _ (hl t (List.mem_cons_self ..))) hr, ih fun t ht => hl t (List.mem_cons_of_mem _ ht)]
    exact this symbols fun t ht => ht
  have e2 : hasPrefix c!"//" (g ++ rest) = false := by rw [symbol_prefix (by decide) hr, h2]
  have e3 : hasPrefix c!"/*" (g ++ rest) = false := by rw [symbol_prefix (by decide) hr, h3]
  obtain ⟨c, t, rfl⟩ := List.exists_cons_of_ne_nil hne
  obtain ⟨a1, a2, a3, a4⟩ := hc c (List.mem_cons_self ..)
  have a5 : letter c = false := (hl.1.1 c a1).trans a2
  simp only [List.mem_cons, List.not_mem_nil, or_false, not_or] at a4
  obtain ⟨b1, b2, b3, b4, b5, b6⟩ := a4
  refine scan_token (t := .sym (c :: t)) ?_ ?_
  · show Translate.token letter (c :: (t ++ rest)) = _
    have e1' : (symbols.find? fun u => hasPrefix u (c :: (t ++ rest))) = some (c :: t) := e1
    have e2' : hasPrefix c!"//" (c :: (t ++ rest)) = false := e2
    have e3' : hasPrefix c!"/*" (c :: (t ++ rest)) = false := e3
    unfold Translate.token
    simp only
    rw [if_neg (by simp [a5, b1]), if_neg (by simp [a3]), if_neg (by simp [b5, b6]), e1', e2', e3']
    rfl
  · intro d hd
    cases hd
    exact ⟨b2, b3, b4⟩

theorem tokens_symbol {letter : Char → Bool} (hl : SignLetters letter) {g rest : Text} (hg : g ∈ exprSymbols) (hr : StaysShort g rest) :
    tokens letter (g ++ rest) = (tokens letter rest).map (.sym g :: ·) := tokens_sign hl (List.mem_cons_of_mem _ hg) hr

end Verif.Lemmas
