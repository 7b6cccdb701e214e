import Verif.Spec.HclTextSpec
import Verif.Model.HclOut
import Verif.Lemmas.Quote
/-!
# Lemmas on tokens of HCL
-/

namespace Verif
namespace Lemmas
open Spec Text

/-- A blank character of HCL. -/
abbrev HWhite (c : Char) : Prop := c = ' ' ∨ c = '\t' ∨ c = '\n'

/-- A text after which a word is ended. -/
def Cut (t : Text) : Prop := ∀ c t', t = c :: t' → wordChar c = false

theorem cut_nil : Cut [] := fun _ _ h => by simp at h
theorem cut_cons {c : Char} {t : Text} (h : wordChar c = false) : Cut (c :: t) := fun _ _ e => by
  rw [List.cons.injEq] at e; rw [← e.1]; exact h

/-- A text whose tokens are known, whatever comes after. -/
def Lexes (s : Text) (ts : List HTok) : Prop :=
  ∀ rest, Cut rest → tokensFrom .out (s ++ rest) = (tokensFrom .out rest).map (ts ++ ·)

theorem tokensFrom_cons (p : HPlace) (c : Char) (t : Text) :
    tokensFrom p (c :: t) = (readChar p c).bind (fun r => (tokensFrom r.2 t).map (r.1 ++ ·)) := by
  cases p <;> rfl

theorem map_nil_append (o : Option (List HTok)) : o.map (([] : List HTok) ++ ·) = o := by cases o <;> rfl

theorem map_append_append (a b : List HTok) (o : Option (List HTok)) : (o.map (b ++ ·)).map (a ++ ·) = o.map ((a ++ b) ++ ·) := by
  cases o <;> simp

theorem tokensFrom_white {c : Char} (h : HWhite c) (t : Text) : tokensFrom .out (c :: t) = tokensFrom .out t := by
  have : readChar .out c = some ([], .out) := by simp only [readChar, startTok]; rw [if_pos h]
  rw [tokensFrom_cons, this, Option.bind_some, map_nil_append]

theorem tokensFrom_whites {w : Text} (h : ∀ c ∈ w, HWhite c) (t : Text) : tokensFrom .out (w ++ t) = tokensFrom .out t := by
  induction w with
  | nil => rfl
  | cons c w ih =>
    rw [List.cons_append, tokensFrom_white (h c (by simp)), ih (fun c hc => h c (List.mem_cons_of_mem _ hc))]

/-- The punctuation of HCL. -/
abbrev HPunct (c : Char) : Prop := c = '{' ∨ c = '}' ∨ c = '[' ∨ c = ']' ∨ c = '=' ∨ c = ','

theorem white_cut {c : Char} (h : HWhite c) : wordChar c = false := by
  rcases h with rfl | rfl | rfl <;> decide

theorem punct_cut {c : Char} (h : HPunct c) : wordChar c = false := by
  rcases h with rfl | rfl | rfl | rfl | rfl | rfl <;> decide

theorem tokensFrom_punct {c : Char} (h : HPunct c) (t : Text) : tokensFrom .out (c :: t) = (tokensFrom .out t).map (HTok.punct c :: ·) := by
  have : readChar .out c = some ([.punct c], .out) := by
    simp only [readChar, startTok]
    rw [if_neg (by rcases h with rfl | rfl | rfl | rfl | rfl | rfl <;> decide), if_pos h]
  rw [tokensFrom_cons, this, Option.bind_some]
  rfl

theorem lexes_nil : Lexes [] [] := fun rest _ => by simp

theorem lexes_white {c : Char} {s : Text} {ts} (h : HWhite c) (hs : Lexes s ts) : Lexes (c :: s) ts := fun rest hr => by
  rw [List.cons_append, tokensFrom_white h, hs rest hr]

theorem lexes_whites {w s : Text} {ts} (h : ∀ c ∈ w, HWhite c) (hs : Lexes s ts) : Lexes (w ++ s) ts := fun rest hr => by
  rw [List.append_assoc, tokensFrom_whites h, hs rest hr]

theorem lexes_punct {c : Char} {s : Text} {ts} (h : HPunct c) (hs : Lexes s ts) : Lexes (c :: s) (.punct c :: ts) := fun rest hr => by
  rw [List.cons_append, tokensFrom_punct h, hs rest hr]
  cases tokensFrom .out rest <;> rfl

theorem cut_append {a b : Text} (ha : Cut a) (hb : Cut b) : Cut (a ++ b) := by
  cases a with
  | nil => exact hb
  | cons c a => exact cut_cons (ha c a rfl)

theorem lexes_append {a b : Text} {ta tb} (ha : Lexes a ta) (hb : Lexes b tb) (hc : Cut b) : Lexes (a ++ b) (ta ++ tb) := fun rest hr => by
  rw [List.append_assoc, ha _ (cut_append hc hr), hb _ hr, map_append_append]

/-- The tokens of a text alone. -/
theorem tokens_of_lexes {s : Text} {ts} (h : Lexes s ts) : tokens s = some ts := by
  have := h [] cut_nil
  simpa [tokensFrom, tokens] using this

theorem lexes_nil_eq {ts} (h : Lexes [] ts) : ts = [] := by
  have := tokens_of_lexes h
  simp [tokens, tokensFrom] at this
  exact this

/-! ## Words -/

theorem startTok_word {c : Char} (h : wordChar c = true) : startTok c = some ([], .word [c]) := by
  have h1 : ¬ HWhite c := fun hw => by rw [white_cut hw] at h; cases h
  have h2 : ¬ HPunct c := fun hw => by rw [punct_cut hw] at h; cases h
  have h3 : c ≠ '"' := by rintro rfl; revert h; decide
  unfold startTok
  rw [if_neg h1, if_neg h2, if_neg h3, if_pos h]

theorem tokensFrom_word {w : Text} (hw : ∀ c ∈ w, wordChar c = true) (acc rest : Text) (hr : Cut rest) :
    tokensFrom (.word acc) (w ++ rest) = (tokensFrom .out rest).map (HTok.word (acc ++ w) :: ·) := by
  induction w generalizing acc with
  | nil =>
    rw [List.nil_append, List.append_nil]
    cases rest with
    | nil => rfl
    | cons c rest =>
      rw [tokensFrom_cons, tokensFrom_cons]
      simp only [readChar]
      rw [if_neg (by simp [hr c rest rfl])]
      cases startTok c with
      | none => rfl
      | some r => simp [Option.map_map, Function.comp_def]
  | cons c w ih =>
    rw [List.cons_append, tokensFrom_cons]
    simp only [readChar]
    rw [if_pos (hw c (by simp)), Option.bind_some, map_nil_append, ih (fun c hc => hw c (List.mem_cons_of_mem _ hc))]
    simp

theorem lexes_word {w : Text} (hne : w ≠ []) (hw : ∀ c ∈ w, wordChar c = true) : Lexes w [.word w] := fun rest hr => by
  cases w with
  | nil => exact absurd rfl hne
  | cons c w =>
    rw [List.cons_append, tokensFrom_cons]
    simp only [readChar]
    rw [startTok_word (hw c (by simp)), Option.bind_some, map_nil_append,
      tokensFrom_word (fun c hc => hw c (List.mem_cons_of_mem _ hc)) _ _ hr]
    rfl

/-! ## Quoted texts -/

/-- A character that stands for itself in quotes. -/
def PlainQ (c : Char) : Prop := c ≠ '"' ∧ c ≠ '\\' ∧ c ≠ '\n'

theorem tokensFrom_plainQ {w : Text} (hw : ∀ c ∈ w, PlainQ c) (acc rest : Text) :
    tokensFrom (.quoted acc) (w ++ rest) = tokensFrom (.quoted (acc ++ w)) rest := by
  induction w generalizing acc with
  | nil => simp
  | cons c w ih =>
    obtain ⟨h1, h2, h3⟩ := hw c (by simp)
    rw [List.cons_append, tokensFrom_cons]
    simp only [readChar]
    rw [if_neg h1, if_neg h2, if_neg h3, Option.bind_some, map_nil_append, ih (fun c hc => hw c (List.mem_cons_of_mem _ hc))]
    simp

theorem digit_plainQ : ∀ n : Fin 16, PlainQ (Nat.digitChar n.1) := by unfold PlainQ; decide

theorem hex_plainQ (k n : Nat) : ∀ c ∈ Quote.hex k n, PlainQ c := by
  induction k generalizing n with
  | zero => simp [Quote.hex]
  | succ k ih =>
    intro c hc
    simp only [Quote.hex, List.mem_append, List.mem_singleton] at hc
    rcases hc with h | rfl
    · exact ih _ c h
    · exact digit_plainQ ⟨n % 16, Nat.mod_lt _ (by omega)⟩

/-- The forms of an escaped character: itself, or a backslash, a character and plain ones. -/
theorem escape_forms (pr : Char → Bool) (c : Char) :
    (Quote.escape pr c = [c] ∧ PlainQ c) ∨
    (∃ e w, Quote.escape pr c = '\\' :: e :: w ∧ e ∈ T "\"\\abfnrtvxuU" ∧ (∀ c ∈ w, PlainQ c ∧ c ∈ T "0123456789abcdef")
      ∧ (e = 'n' → c = '\n' ∧ w = []) ∧ (e = '\\' → c = '\\' ∧ w = []) ∧ (c = '\n' → e = 'n') ∧ (e = 'r' → c = '\r') ∧ (e = 't' → c = '\t')) := by
  have hexd : ∀ k n, ∀ c ∈ Quote.hex k n, c ∈ T "0123456789abcdef" := by
    intro k
    induction k with
    | zero => simp [Quote.hex]
    | succ k ih =>
      intro n c hc
      simp only [Quote.hex, List.mem_append, List.mem_singleton] at hc
      rcases hc with h | rfl
      · exact ih _ c h
      · have : ∀ n : Fin 16, Nat.digitChar n.1 ∈ T "0123456789abcdef" := by decide
        exact this ⟨n % 16, Nat.mod_lt _ (by omega)⟩
  have hexb : ∀ k n, ∀ c ∈ Quote.hex k n, PlainQ c ∧ c ∈ T "0123456789abcdef" := fun k n c hc => ⟨hex_plainQ k n c hc, hexd k n c hc⟩
  unfold Quote.escape
  by_cases h1 : c = '"' ∨ c = '\\'
  · rw [if_pos h1]
    refine .inr ⟨c, [], rfl, ?_, by simp, ?_, ?_, ?_, ?_, ?_⟩
    · rcases h1 with rfl | rfl <;> decide
    · rcases h1 with rfl | rfl <;> decide
    · exact fun h => ⟨h, rfl⟩
    · rcases h1 with rfl | rfl <;> decide
    · rcases h1 with rfl | rfl <;> decide
    · rcases h1 with rfl | rfl <;> decide
  rw [if_neg h1]
  by_cases h2 : Quote.isPrint pr c
  · rw [if_pos h2]
    refine .inl ⟨rfl, fun h => h1 (.inl h), fun h => h1 (.inr h), ?_⟩
    rintro rfl
    simp [Quote.isPrint] at h2
  rw [if_neg h2]
  have nl : ∀ n, n ≠ 10 → c.toNat = n → c ≠ '\n' := by rintro n hn e rfl; exact hn e.symm
  by_cases h3 : c.toNat = 7
  · rw [if_pos h3]; exact .inr ⟨'a', [], rfl, by decide, by simp, fun h => absurd h (by decide), fun h => absurd h (by decide), fun h => absurd h (nl 7 (by decide) h3), fun h => absurd h (by decide), fun h => absurd h (by decide)⟩
  rw [if_neg h3]
  by_cases h4 : c.toNat = 8
  · rw [if_pos h4]; exact .inr ⟨'b', [], rfl, by decide, by simp, fun h => absurd h (by decide), fun h => absurd h (by decide), fun h => absurd h (nl 8 (by decide) h4), fun h => absurd h (by decide), fun h => absurd h (by decide)⟩
  rw [if_neg h4]
  by_cases h5 : c.toNat = 12
  · rw [if_pos h5]; exact .inr ⟨'f', [], rfl, by decide, by simp, fun h => absurd h (by decide), fun h => absurd h (by decide), fun h => absurd h (nl 12 (by decide) h5), fun h => absurd h (by decide), fun h => absurd h (by decide)⟩
  rw [if_neg h5]
  by_cases h6 : c.toNat = 10
  · rw [if_pos h6]; exact .inr ⟨'n', [], rfl, by decide, by simp, fun _ => ⟨char_of_toNat h6, rfl⟩, fun h => absurd h (by decide), fun _ => rfl, fun h => absurd h (by decide), fun h => absurd h (by decide)⟩
  rw [if_neg h6]
  have h6' : c ≠ '\n' := by rintro rfl; exact h6 rfl
  by_cases h7 : c.toNat = 13
  · rw [if_pos h7]; exact .inr ⟨'r', [], rfl, by decide, by simp, fun h => absurd h (by decide), fun h => absurd h (by decide), fun h => absurd h h6', fun _ => char_of_toNat h7, fun h => absurd h (by decide)⟩
  rw [if_neg h7]
  by_cases h8 : c.toNat = 9
  · rw [if_pos h8]; exact .inr ⟨'t', [], rfl, by decide, by simp, fun h => absurd h (by decide), fun h => absurd h (by decide), fun h => absurd h h6', fun h => absurd h (by decide), fun _ => char_of_toNat h8⟩
  rw [if_neg h8]
  by_cases h9 : c.toNat = 11
  · rw [if_pos h9]; exact .inr ⟨'v', [], rfl, by decide, by simp, fun h => absurd h (by decide), fun h => absurd h (by decide), fun h => absurd h h6', fun h => absurd h (by decide), fun h => absurd h (by decide)⟩
  rw [if_neg h9]
  split
  · exact .inr ⟨'x', _, rfl, by decide, hexb _ _, fun h => absurd h (by decide), fun h => absurd h (by decide), fun h => absurd h h6', fun h => absurd h (by decide), fun h => absurd h (by decide)⟩
  · split
    · exact .inr ⟨'u', _, rfl, by decide, hexb _ _, fun h => absurd h (by decide), fun h => absurd h (by decide), fun h => absurd h h6', fun h => absurd h (by decide), fun h => absurd h (by decide)⟩
    · exact .inr ⟨'U', _, rfl, by decide, hexb _ _, fun h => absurd h (by decide), fun h => absurd h (by decide), fun h => absurd h h6', fun h => absurd h (by decide), fun h => absurd h (by decide)⟩

theorem tokensFrom_escape (pr : Char → Bool) (c : Char) (acc rest : Text) :
    tokensFrom (.quoted acc) (Quote.escape pr c ++ rest) = tokensFrom (.quoted (acc ++ Quote.escape pr c)) rest := by
  rcases escape_forms pr c with ⟨e, hp⟩ | ⟨e, w, he, hm, hw, _⟩
  · rw [e]; exact tokensFrom_plainQ (by simpa using hp) acc rest
  · rw [he, List.cons_append, List.cons_append, tokensFrom_cons]
    simp only [readChar]
    rw [if_neg (by decide), if_true, Option.bind_some, map_nil_append, tokensFrom_cons]
    simp only [readChar]
    rw [if_neg (by rintro rfl; revert hm; decide), Option.bind_some, map_nil_append, tokensFrom_plainQ (fun c hc => (hw c hc).1)]
    simp

theorem tokensFrom_quote (pr : Char → Bool) (s rest : Text) :
    tokensFrom .out (Quote.quote pr s ++ rest) = (tokensFrom .out rest).map (HTok.str s :: ·) := by
  have h1 : ∀ (s acc rest : Text), tokensFrom (.quoted acc) (s.flatMap (Quote.escape pr) ++ rest) =
      tokensFrom (.quoted (acc ++ s.flatMap (Quote.escape pr))) rest := by
    intro s
    induction s with
    | nil => simp
    | cons c s ih => intro acc rest; rw [List.flatMap_cons, List.append_assoc, tokensFrom_escape, ih]; simp
  rw [Quote.quote, List.cons_append, tokensFrom_cons]
  have : readChar .out '"' = some ([], .quoted []) := rfl
  rw [this, Option.bind_some, map_nil_append, List.append_assoc, h1, List.nil_append]
  have h2 : ['"'] ++ rest = '"' :: rest := rfl
  rw [h2, tokensFrom_cons]
  simp only [readChar]
  have h3 := readLiteral_quote pr s
  rw [Quote.quote] at h3
  rw [if_true, h3]
  rfl

theorem lexes_quote (pr : Char → Bool) (s : Text) : Lexes (Quote.quote pr s) [.str s] := fun rest _ => by
  rw [tokensFrom_quote]; rfl

/-! ## Indentation -/

/-- Blanks after every end of line. -/
def afterLines (w s : Text) : Text := s.flatMap (fun c => if c = '\n' then '\n' :: w else [c])

theorem indent_eq (s w : Text) : Strings.indent s w = w ++ afterLines w s := by
  have : ∀ s : Text, join ['\n'] ((splitC '\n' s).map (w ++ ·)) = w ++ afterLines w s := by
    intro s
    induction s with
    | nil => simp [splitC, join, afterLines]
    | cons c s ih =>
      by_cases h : c = '\n'
      · subst h
        have e : splitC '\n' ('\n' :: s) = [] :: splitC '\n' s := by simp [splitC]
        rw [e, List.map_cons, join_cons_of_ne _ _ (by simp [splitC_ne_nil]), ih]
        simp [afterLines]
      · have e : ∃ x l, splitC '\n' s = x :: l ∧ splitC '\n' (c :: s) = (c :: x) :: l := by
          cases hs : splitC '\n' s with
          | nil => exact absurd hs (splitC_ne_nil _ _)
          | cons x l => exact ⟨x, l, rfl, by simp [splitC, h, hs]⟩
        obtain ⟨x, l, e1, e2⟩ := e
        rw [e1] at ih
        rw [e2]
        have e3 : afterLines w (c :: s) = c :: afterLines w s := by simp [afterLines, h]
        rw [e3]
        cases l with
        | nil => simp [join] at ih ⊢; exact ih
        | cons y l =>
          rw [List.map_cons, join_cons_of_ne _ _ (by simp)] at ih ⊢
          simp only [List.append_assoc, List.append_cancel_left_eq, List.cons_append] at ih ⊢
          rw [ih]
  exact this s

/-- After an end of line the reader is between tokens, or refuses. -/
theorem readChar_newline (p : HPlace) : readChar p '\n' = none ∨ ∃ ts, readChar p '\n' = some (ts, .out) := by
  cases p with
  | out => exact .inr ⟨[], rfl⟩
  | word w =>
    refine .inr ⟨[.word w], ?_⟩
    simp only [readChar]
    rw [if_neg (by decide)]
    have : startTok '\n' = some ([], .out) := rfl
    rw [this]; rfl
  | quoted s => exact .inl rfl
  | escaped s => exact .inl rfl

theorem tokensFrom_afterLines {w : Text} (hw : ∀ c ∈ w, HWhite c) (p : HPlace) (s rest : Text) :
    tokensFrom p (afterLines w s ++ rest) = tokensFrom p (s ++ rest) := by
  induction s generalizing p with
  | nil => rfl
  | cons c s ih =>
    by_cases h : c = '\n'
    · subst h
      have e : afterLines w ('\n' :: s) = '\n' :: (w ++ afterLines w s) := by simp [afterLines]
      rw [e, List.cons_append, List.cons_append, tokensFrom_cons, tokensFrom_cons]
      rcases readChar_newline p with h | ⟨ts, h⟩
      · rw [h]; rfl
      · rw [h, Option.bind_some, Option.bind_some, List.append_assoc, tokensFrom_whites hw, ih]
    · have e : afterLines w (c :: s) = c :: afterLines w s := by simp [afterLines, h]
      rw [e, List.cons_append, List.cons_append, tokensFrom_cons, tokensFrom_cons]
      simp only [ih]

theorem lexes_indent {s w : Text} {ts} (hw : ∀ c ∈ w, HWhite c) (hs : Lexes s ts) : Lexes (Strings.indent s w) ts := fun rest hr => by
  rw [indent_eq, List.append_assoc, tokensFrom_whites hw, tokensFrom_afterLines hw, hs rest hr]

end Lemmas
end Verif
