import Verif.Model.JsonOut
import Verif.Model.JsonIn
import Verif.Lemmas.Marshal
import Verif.Lemmas.Float64
import Verif.Spec.JsonSpec
import Verif.Lemmas.Quote
import Verif.Lemmas.DictOps

namespace Verif.JsonOut
open Verif Verif.Text Verif.Spec Verif.Value

mutual
theorem value_ind_aux {P : Value → Prop} (scalar : ∀ v : Value, v.isScalar = true → P v) (list : ∀ l, (∀ v ∈ l, P v) → P (.list l))
    (dict : ∀ d, (∀ e ∈ d, P e.2) → P (.dict d)) : ∀ v, P v
  | .nil => scalar _ rfl
  | .bool _ => scalar _ rfl
  | .int _ => scalar _ rfl
  | .flt _ => scalar _ rfl
  | .str _ => scalar _ rfl
  | .list l => list l (value_ind_list scalar list dict l)
  | .dict d => dict d (value_ind_dict scalar list dict d)
theorem value_ind_list {P : Value → Prop} (scalar : ∀ v : Value, v.isScalar = true → P v) (list : ∀ l, (∀ v ∈ l, P v) → P (.list l))
    (dict : ∀ d, (∀ e ∈ d, P e.2) → P (.dict d)) : ∀ l : List Value, ∀ v ∈ l, P v
  | [], _, h => by cases h
  | v :: l, w, h => (List.mem_cons.1 h).elim (fun e => e ▸ value_ind_aux scalar list dict v) (fun h => value_ind_list scalar list dict l w h)
theorem value_ind_dict {P : Value → Prop} (scalar : ∀ v : Value, v.isScalar = true → P v) (list : ∀ l, (∀ v ∈ l, P v) → P (.list l))
    (dict : ∀ d, (∀ e ∈ d, P e.2) → P (.dict d)) : ∀ d : List (Text × Value), ∀ e ∈ d, P e.2
  | [], _, h => by cases h
  | (_, v) :: l, w, h => (List.mem_cons.1 h).elim (fun e => e ▸ value_ind_aux scalar list dict v) (fun h => value_ind_dict scalar list dict l w h)
end

/-- Induction on values. -/
theorem value_ind {P : Value → Prop} (scalar : ∀ v : Value, v.isScalar = true → P v) (list : ∀ l, (∀ v ∈ l, P v) → P (.list l))
    (dict : ∀ d, (∀ e ∈ d, P e.2) → P (.dict d)) (v : Value) : P v := value_ind_aux scalar list dict v

theorem writeElems_eq (fl : Text → Text) (nl : Nat → Text) (colon : Text) (n : Nat) (l : List Value) :
    writeElems fl nl colon n l = l.map (write fl nl colon n) := by
  induction l with
  | nil => rfl
  | cons v l ih => simp [writeElems, ih]

theorem writeEntries_eq (fl : Text → Text) (nl : Nat → Text) (colon : Text) (n : Nat) (l : List (Text × Value)) :
    writeEntries fl nl colon n l = l.map (fun e => (e.1, write fl nl colon n e.2)) := by
  induction l with
  | nil => rfl
  | cons e l ih => obtain ⟨k, v⟩ := e; simp [writeEntries, ih]

theorem jsonDataElems_eq (fl : Text → Text) (l : List Value) : jsonDataElems fl l = l.map (jsonData fl) := by
  induction l with
  | nil => rfl
  | cons v l ih => simp [jsonDataElems, ih]

theorem jsonDataEntries_eq (fl : Text → Text) (l : List (Text × Value)) : jsonDataEntries fl l = l.map (fun e => (e.1, jsonData fl e.2)) := by
  induction l with
  | nil => rfl
  | cons e l ih => obtain ⟨k, v⟩ := e; simp [jsonDataEntries, ih]

/-! ### Texts -/

theorem readChars_plain {c : Char} (h1 : c ≠ '"') (h2 : c ≠ '\\') (h3 : ¬ c.toNat < 32) (t : Text) :
    readChars (c :: t) = (readChars t).map (fun r => (c :: r.1, r.2)) := by
  rw [readChars.eq_def]
  split
  · rename_i h; cases h; exact absurd rfl h1
  · rename_i h; cases h; exact absurd rfl h2
  · rename_i h; cases h; exact absurd rfl h2
  · rename_i h; cases h
    rw [if_neg (by simp [h2, h3])]
  · rename_i h; cases h

theorem readChars_esc {c : Char} (h : c ≠ 'u') (t : Text) :
    readChars ('\\' :: c :: t) = (jsonEscape c).bind fun c => (readChars t).map (fun r => (c :: r.1, r.2)) := by
  rw [readChars.eq_def]
  split
  · rename_i he; cases he
  · rename_i he; cases he; exact absurd rfl h
  · rename_i he; cases he; rfl
  · rename_i h1 h2 he; cases he; exact absurd rfl (h2 _ _ rfl)
  · rename_i he; cases he

theorem readChars_u {l : Text} (hl : l.length = 4) {n : Nat} (hn : hexNumber 0 l = some n) (hs : ¬ (0xd800 ≤ n ∧ n < 0xe000)) (t : Text) :
    readChars ('\\' :: 'u' :: (l ++ t)) = (readChars t).map (fun r => (Char.ofNat n :: r.1, r.2)) := by
  obtain ⟨a, b, c, d, rfl⟩ := Lemmas.exists4 hl
  rw [show ([a, b, c, d] : Text) ++ t = a :: b :: c :: d :: t from rfl, readChars.eq_def]
  simp only [hn, Option.bind_some, if_neg hs]

theorem not_surrogate (c : Char) : ¬ (0xd800 ≤ c.toNat ∧ c.toNat < 0xe000) := by
  have := c.valid
  simp only [UInt32.isValidChar, Nat.isValidChar] at this
  have e : c.toNat = c.val.toNat := rfl
  omega

theorem readChars_escape (c : Char) (t : Text) : readChars (escape c ++ t) = (readChars t).map (fun r => (c :: r.1, r.2)) := by
  unfold escape
  split
  · rename_i h
    rw [List.cons_append, List.cons_append, List.nil_append, readChars_esc (by rcases h with rfl | rfl <;> decide)]
    rcases h with rfl | rfl <;> rfl
  rename_i h0
  simp only [not_or] at h0
  split
  · rename_i h; subst h; rw [List.cons_append, List.cons_append, List.nil_append, readChars_esc (by decide)]; rfl
  split
  · rename_i h; subst h; rw [List.cons_append, List.cons_append, List.nil_append, readChars_esc (by decide)]; rfl
  split
  · rename_i h; subst h; rw [List.cons_append, List.cons_append, List.nil_append, readChars_esc (by decide)]; rfl
  split
  · rename_i h
    have : c = Char.ofNat 8 := Lemmas.char_of_toNat h
    subst this; rw [List.cons_append, List.cons_append, List.nil_append, readChars_esc (by decide)]; rfl
  split
  · rename_i h
    have : c = Char.ofNat 12 := Lemmas.char_of_toNat h
    subst this; rw [List.cons_append, List.cons_append, List.nil_append, readChars_esc (by decide)]; rfl
  split
  · rename_i h
    have hb : c.toNat < 16 ^ 4 := by
      rcases h with h | h | h | h | h | h
      · omega
      · subst h; decide
      · subst h; decide
      · subst h; decide
      · omega
      · omega
    rw [List.cons_append, List.cons_append, readChars_u (Lemmas.hex_length 4 c.toNat) (by rw [Lemmas.hexNumber_hex _ _ _ hb, Nat.zero_mul, Nat.zero_add]) (not_surrogate c),
      Char.ofNat_toNat]
  · rename_i h
    simp only [not_or] at h
    exact readChars_plain h0.1 h0.2 h.1 t

theorem readChars_string (s t : Text) : readChars (s.flatMap escape ++ '"' :: t) = some (s, t) := by
  induction s with
  | nil => simp [readChars]
  | cons c s ih => rw [List.flatMap_cons, List.append_assoc, readChars_escape, ih]; rfl

/-! ### Words -/

theorem skip_append {a : Text} (h : ∀ c ∈ a, jsonBlank c = true) (t : Text) : skipBlanks (a ++ t) = skipBlanks t := by
  unfold skipBlanks
  induction a with
  | nil => rfl
  | cons c a ih =>
    rw [List.cons_append, List.dropWhile_cons, if_pos (h c (by simp))]
    exact ih (fun c hc => h c (by simp [hc]))

theorem skip_cons {c : Char} (h : jsonBlank c = false) (t : Text) : skipBlanks (c :: t) = c :: t := by
  unfold skipBlanks
  rw [List.dropWhile_cons, if_neg (by simp [h])]

/-- What comes after a value does not prolong a word. -/
def Ends (t : Text) : Prop := ∀ c r, t = c :: r → jsonWordChar c = false

theorem span_word {w t : Text} (h : ∀ c ∈ w, jsonWordChar c = true) (he : Ends t) :
    (w ++ t).takeWhile jsonWordChar = w ∧ (w ++ t).dropWhile jsonWordChar = t := by
  induction w with
  | nil =>
    cases t with
    | nil => exact ⟨rfl, rfl⟩
    | cons c t => simp [he c t rfl]
  | cons c w ih =>
    have := ih (fun c hc => h c (by simp [hc]))
    simp [h c (by simp), this.1, this.2]

/-- The first character of a value. -/
def Starts (t : Text) : Prop := ∃ c r, t = c :: r ∧ jsonBlank c = false ∧ c ≠ ']' ∧ c ≠ '}'

theorem word_start {c : Char} (h : jsonWordChar c = true) : jsonBlank c = false ∧ c ≠ ']' ∧ c ≠ '}' ∧ c ≠ '"' ∧ c ≠ '[' ∧ c ≠ '{' := by
  refine ⟨?_, ?_, ?_, ?_, ?_, ?_⟩
  · cases hb : jsonBlank c with
    | false => rfl
    | true =>
      exfalso
      simp only [jsonBlank, Bool.or_eq_true, beq_iff_eq] at hb
      rcases hb with ((rfl | rfl) | rfl) | rfl <;> exact absurd h (by decide)
  all_goals (rintro rfl; exact absurd h (by decide))

theorem readJValue_word {w rest pre : Text} {d : JData} (n : Nat) (hp : ∀ c ∈ pre, jsonBlank c = true) (hw : jsonWord w = some d) (hne : w ≠ [])
    (hc : ∀ c ∈ w, jsonWordChar c = true) (he : Ends rest) : readJValue (n + 1) (pre ++ (w ++ rest)) = some (d, rest) := by
  obtain ⟨h1, h2⟩ := span_word hc he
  unfold readJValue
  rw [skip_append hp]
  cases w with
  | nil => exact absurd rfl hne
  | cons c w =>
    obtain ⟨hb, _, _, q, a, o⟩ := word_start (hc c (by simp))
    rw [List.cons_append, skip_cons hb]
    rw [List.cons_append] at h1 h2
    split
    · rename_i h; cases h; exact absurd rfl q
    · rename_i h; cases h; exact absurd rfl a
    · rename_i h; cases h; exact absurd rfl o
    · rw [h1, h2, hw]; rfl

/-! ### Numbers -/

theorem digit_word {c : Char} (h : jsonDigit c = true) : jsonWordChar c = true := by simp [jsonWordChar, h]

theorem someDigits_word {t : Text} (h : someDigits t = true) : ∀ c ∈ t, jsonWordChar c = true := by
  simp only [someDigits, Bool.and_eq_true, List.all_eq_true] at h
  exact fun c hc => digit_word (h.2 c hc)

theorem e_word {e : Char} (h : (e == 'e' || e == 'E') = true) : jsonWordChar e = true := by
  simp only [Bool.or_eq_true, beq_iff_eq] at h
  rcases h with rfl | rfl <;> decide

theorem exponent_word {t : Text} (h : numberExponent t = true) : ∀ c ∈ t, jsonWordChar c = true := by
  rw [numberExponent.eq_def] at h
  split at h
  · intro c hc; cases hc
  · rw [Bool.and_eq_true] at h
    intro c hc
    simp only [List.mem_cons] at hc
    rcases hc with rfl | rfl | hc
    · exact e_word h.1
    · decide
    · exact someDigits_word h.2 c hc
  · rw [Bool.and_eq_true] at h
    intro c hc
    simp only [List.mem_cons] at hc
    rcases hc with rfl | rfl | hc
    · exact e_word h.1
    · decide
    · exact someDigits_word h.2 c hc
  · rw [Bool.and_eq_true] at h
    intro c hc
    rcases List.mem_cons.1 hc with rfl | hc
    · exact e_word h.1
    · exact someDigits_word h.2 c hc

theorem digits_word {t : Text} (h : ∀ c ∈ t.dropWhile jsonDigit, jsonWordChar c = true) : ∀ c ∈ t, jsonWordChar c = true := by
  induction t with
  | nil => intro c hc; cases hc
  | cons d t ih =>
    rw [List.dropWhile_cons] at h
    split at h
    · rename_i hd
      intro c hc
      rcases List.mem_cons.1 hc with rfl | hc
      · exact digit_word hd
      · exact ih h c hc
    · exact h

theorem fraction_word {t : Text} (h : numberFraction t = true) : ∀ c ∈ t, jsonWordChar c = true := by
  rw [numberFraction.eq_def] at h
  split at h
  · rw [Bool.and_eq_true] at h
    intro c hc
    simp only [List.mem_cons] at hc
    rcases hc with rfl | rfl | hc
    · decide
    · exact digit_word h.1
    · exact digits_word (exponent_word h.2) c hc
  · exact exponent_word h

theorem unsigned_word {t : Text} (h : numberUnsigned t = true) : ∀ c ∈ t, jsonWordChar c = true := by
  rw [numberUnsigned.eq_def] at h
  split at h
  · intro c hc
    rcases List.mem_cons.1 hc with rfl | hc
    · decide
    · exact fraction_word h c hc
  · rw [Bool.and_eq_true] at h
    intro c hc
    rcases List.mem_cons.1 hc with rfl | hc
    · exact digit_word h.1
    · exact digits_word (fraction_word h.2) c hc
  · cases h

theorem number_word {t : Text} (h : isJsonNumber t = true) : t ≠ [] ∧ (∀ c ∈ t, jsonWordChar c = true) ∧ jsonWord t = some (.num t) := by
  have hne : t ≠ [] := by rintro rfl; cases h
  have hfirst : ∀ c r, t = c :: r → c = '-' ∨ jsonDigit c = true := by
    rintro c r rfl
    rw [isJsonNumber.eq_def] at h
    split at h
    · rename_i he; cases he; exact .inl rfl
    · rw [numberUnsigned.eq_def] at h
      split at h
      · rename_i he; cases he; exact .inr (by decide)
      · rename_i he; cases he
        rw [Bool.and_eq_true] at h
        exact .inr h.1
      · cases h
  refine ⟨hne, ?_, ?_⟩
  · rw [isJsonNumber.eq_def] at h
    split at h
    · intro c hc
      rcases List.mem_cons.1 hc with rfl | hc
      · decide
      · exact unsigned_word h c hc
    · exact unsigned_word h
  · have no : ∀ c r, (c = 'n' ∨ c = 't' ∨ c = 'f') → t ≠ c :: r := by
      intro c r hc e
      rcases hfirst c r e with rfl | hd
      · revert hc; decide
      · rcases hc with rfl | rfl | rfl <;> exact absurd hd (by decide)
    unfold jsonWord
    have a : t ≠ T "null" := no 'n' (T "ull") (by simp)
    have b : t ≠ T "true" := no 't' (T "rue") (by simp)
    have c : t ≠ T "false" := no 'f' (T "alse") (by simp)
    rw [if_neg a, if_neg b, if_neg c, if_pos h]

theorem digits_all (n : Nat) : ∀ c ∈ Nat.toDigits 10 n, jsonDigit c = true := by
  intro c hc
  have h : c.isDigit = true := Nat.isDigit_of_mem_toDigits (by omega) (by omega) hc
  simp only [Char.isDigit, Bool.and_eq_true, decide_eq_true_eq] at h
  simp only [jsonDigit, Bool.and_eq_true, decide_eq_true_eq]
  exact h

theorem digits_zero {n : Nat} {t : Text} (h : Nat.toDigits 10 n = '0' :: t) : t = [] := by
  induction n using Nat.strongRecOn generalizing t with
  | _ n ih =>
    by_cases hn : n < 10
    · rw [Nat.toDigits_of_lt_base hn] at h
      exact (List.cons.inj h).2.symm
    · have e : Nat.toDigits 10 n = Nat.toDigits 10 (n / 10) ++ Nat.toDigits 10 (n % 10) := by
        rw [Nat.toDigits_append_toDigits (by omega) (by omega) (by omega)]
        congr 1
        omega
      rw [e] at h
      cases hd : Nat.toDigits 10 (n / 10) with
      | nil => exact absurd hd Nat.toDigits_ne_nil
      | cons c r =>
        rw [hd, List.cons_append] at h
        injection h with h1 h2
        subst h1
        have := ih (n / 10) (by omega) hd
        subst this
        have hz : Nat.toDigits 10 (n / 10) = Nat.toDigits 10 0 := by rw [hd]; rfl
        have := toDigits10_inj hz
        omega

theorem dropWhile_all {p : Char → Bool} {t : Text} (h : ∀ c ∈ t, p c = true) : t.dropWhile p = [] := by
  induction t with
  | nil => rfl
  | cons c t ih => rw [List.dropWhile_cons, if_pos (h c (by simp))]; exact ih (fun c hc => h c (by simp [hc]))

theorem unsigned_digits (n : Nat) : numberUnsigned (Nat.toDigits 10 n) = true := by
  have hd := digits_all n
  have hz := fun t => digits_zero (n := n) (t := t)
  have hne : Nat.toDigits 10 n ≠ [] := Nat.toDigits_ne_nil
  generalize Nat.toDigits 10 n = l at *
  rw [numberUnsigned.eq_def]
  split
  · rename_i t; rw [hz t rfl]; rfl
  · rename_i c t _
    rw [hd c (by simp), dropWhile_all (fun c hc => hd c (by simp [hc]))]; rfl
  · exact absurd rfl hne

theorem number_int (i : Int) : isJsonNumber (intText i) = true := by
  cases i with
  | ofNat n =>
    have h := unsigned_digits n
    have hd := digits_all n
    show isJsonNumber (Nat.toDigits 10 n) = true
    generalize Nat.toDigits 10 n = l at *
    rw [isJsonNumber.eq_def]
    split
    · exact absurd (hd '-' (by simp)) (by decide)
    · exact h
  | negSucc n => exact unsigned_digits (n + 1)

theorem intText_toString (i : Int) : intText i = (toString i).toList := by
  cases i with
  | ofNat n =>
    show Nat.toDigits 10 n = _
    rw [show toString (Int.ofNat n) = Nat.repr n from rfl, Nat.repr, String.toList_ofList]
  | negSucc n =>
    show '-' :: Nat.toDigits 10 (n + 1) = _
    rw [show toString (Int.negSucc n) = "-" ++ Nat.repr (n + 1) from rfl, String.toList_append, Nat.repr, String.toList_ofList (l := Nat.toDigits 10 (n + 1))]
    rfl

/-! ### Values -/

theorem starts_word {w : Text} (hne : w ≠ []) (hc : ∀ c ∈ w, jsonWordChar c = true) : Starts w := by
  cases w with
  | nil => exact absurd rfl hne
  | cons c w =>
    have h := word_start (hc c (by simp))
    exact ⟨c, w, rfl, h.1, h.2.1, h.2.2.1⟩

/-- A scalar that is not a text is written as a word. -/
theorem write_scalar {fl : Text → Text} (hfl : ∀ r, isJsonNumber (fl r) = true) (nl : Nat → Text) (colon : Text) (n : Nat) (v : Value) (hs : v.isScalar = true) :
    (∃ s, v = .str s) ∨ (write fl nl colon n v ≠ [] ∧ (∀ c ∈ write fl nl colon n v, jsonWordChar c = true) ∧
      jsonWord (write fl nl colon n v) = some (jsonData fl v)) := by
  cases v with
  | nil => right; simp only [write, jsonData]; exact ⟨by decide, by decide, rfl⟩
  | bool b => right; cases b <;> simp only [write, jsonData] <;> exact ⟨by decide, by decide, rfl⟩
  | int i => right; simp only [write, jsonData, ← intText_toString]; exact number_word (number_int i)
  | flt r => right; simp only [write, jsonData]; exact number_word (hfl r)
  | str s => exact .inl ⟨s, rfl⟩
  | list l => cases hs
  | dict d => cases hs

theorem starts_write {fl : Text → Text} (hfl : ∀ r, isJsonNumber (fl r) = true) (nl : Nat → Text) (colon : Text) (n : Nat) (v : Value) :
    Starts (write fl nl colon n v) := by
  cases hs : v.isScalar with
  | true =>
    rcases write_scalar hfl nl colon n v hs with ⟨s, rfl⟩ | ⟨h1, h2, _⟩
    · simp only [write, string]; exact ⟨_, _, rfl, by decide, by decide, by decide⟩
    · exact starts_word h1 h2
  | false =>
    cases v with
    | list l =>
      cases l with
      | nil => simp only [write]; exact ⟨'[', [']'], rfl, by decide, by decide, by decide⟩
      | cons v l => simp only [write]; exact ⟨_, _, rfl, by decide, by decide, by decide⟩
    | dict d =>
      cases d with
      | nil => simp only [write]; exact ⟨'{', ['}'], rfl, by decide, by decide, by decide⟩
      | cons v l => simp only [write]; exact ⟨_, _, rfl, by decide, by decide, by decide⟩
    | _ => cases hs

/-- What is said of the writing of a value: reading it gives its data. -/
def Reads (fl : Text → Text) (nl : Nat → Text) (colon : Text) (v : Value) : Prop :=
  ∀ (d n : Nat) (pre rest : Text), (∀ c ∈ pre, jsonBlank c = true) → Ends rest → 2 * (write fl nl colon d v).length ≤ n →
    readJValue n (pre ++ (write fl nl colon d v ++ rest)) = some (jsonData fl v, rest)

theorem ends_blank {a : Text} (h : ∀ c ∈ a, jsonBlank c = true) {c : Char} (hc : jsonWordChar c = false) (t : Text) : Ends (a ++ c :: t) := by
  intro d r e
  cases a with
  | nil => cases e; exact hc
  | cons b a =>
    cases e
    have hb := h d (by simp)
    cases hw : jsonWordChar d with
    | false => rfl
    | true => rw [(word_start hw).1] at hb; cases hb

theorem ends_cons {c : Char} (hc : jsonWordChar c = false) (t : Text) : Ends (c :: t) := by
  intro d r e
  cases e
  exact hc

theorem join_cons (sep x y : Text) (l : List Text) : join sep (x :: y :: l) = x ++ (sep ++ join sep (y :: l)) := by
  simp [join]

theorem read_elems {fl : Text → Text} {nl : Nat → Text} {colon : Text} (hnl : ∀ d, ∀ c ∈ nl d, jsonBlank c = true) (d : Nat) (v : Value) (l : List Value)
    (h : ∀ w ∈ v :: l, Reads fl nl colon w) (n : Nat) (pre post rest : Text) (hp : ∀ c ∈ pre, jsonBlank c = true) (hq : ∀ c ∈ post, jsonBlank c = true)
    (hn : 2 * (join (',' :: nl d) (writeElems fl nl colon d (v :: l))).length + 3 ≤ n) :
    readJElems n (pre ++ (join (',' :: nl d) (writeElems fl nl colon d (v :: l)) ++ (post ++ ']' :: rest))) = some (jsonDataElems fl (v :: l), rest) := by
  induction l generalizing v n pre with
  | nil =>
    obtain ⟨n, rfl⟩ : ∃ m, n = m + 1 := ⟨n - 1, by omega⟩
    simp only [writeElems, join] at hn ⊢
    rw [readJElems, h v (by simp) d n pre _ hp (ends_blank hq (by decide) rest) (by omega)]
    simp only [Option.bind_some]
    rw [skip_append hq, skip_cons (by decide)]
    rfl
  | cons w l ih =>
    obtain ⟨n, rfl⟩ : ∃ m, n = m + 1 := ⟨n - 1, by omega⟩
    simp only [writeElems] at hn ⊢
    rw [join_cons] at hn ⊢
    simp only [List.length_append, List.length_cons] at hn
    rw [readJElems]
    simp only [List.append_assoc, List.cons_append]
    rw [h v (by simp) d n pre _ hp (ends_cons (by decide) _) (by omega)]
    simp only [Option.bind_some]
    rw [skip_cons (by decide)]
    have := ih w (fun x hx => h x (by simp only [List.mem_cons] at hx ⊢; exact .inr hx)) n (nl d) (hnl d)
      (by simp only [writeElems]; omega)
    simp only [writeElems] at this
    simp only [this, Option.map_some, jsonDataElems]

/-- The text of an entry. -/
def entry (fl : Text → Text) (nl : Nat → Text) (colon : Text) (d : Nat) (e : Text × Value) : Text := string e.1 ++ colon ++ write fl nl colon d e.2

theorem read_items {fl : Text → Text} {nl : Nat → Text} {sp : Text} (hnl : ∀ d, ∀ c ∈ nl d, jsonBlank c = true) (hsp : ∀ c ∈ sp, jsonBlank c = true) (d : Nat)
    (e : Text × Value) (l : List (Text × Value))
    (h : ∀ w ∈ e :: l, Reads fl nl (':' :: sp) w.2) (n : Nat) (pre post rest : Text) (hp : ∀ c ∈ pre, jsonBlank c = true) (hq : ∀ c ∈ post, jsonBlank c = true)
    (hn : 2 * (join (',' :: nl d) ((e :: l).map (entry fl nl (':' :: sp) d))).length + 3 ≤ n) :
    readJItems n (pre ++ (join (',' :: nl d) ((e :: l).map (entry fl nl (':' :: sp) d)) ++ (post ++ '}' :: rest))) =
      some ((e :: l).map (fun e => (e.1, jsonData fl e.2)), rest) := by
  induction l generalizing e n pre with
  | nil =>
    obtain ⟨n, rfl⟩ : ∃ m, n = m + 1 := ⟨n - 1, by omega⟩
    simp only [List.map_cons, List.map_nil, join, entry, string, List.length_append, List.length_cons] at hn ⊢
    rw [readJItems, skip_append hp]
    simp only [List.append_assoc, List.cons_append, List.nil_append]
    rw [skip_cons (by decide)]
    simp only [readChars_string, Option.bind_some]
    rw [skip_cons (by decide)]
    simp only []
    rw [h e (by simp) d n sp _ hsp (ends_blank hq (by decide) rest) (by omega)]
    simp only [Option.bind_some]
    rw [skip_append hq, skip_cons (by decide)]
    rfl
  | cons w l ih =>
    obtain ⟨n, rfl⟩ : ∃ m, n = m + 1 := ⟨n - 1, by omega⟩
    rw [List.map_cons, List.map_cons, join_cons, ← List.map_cons] at hn ⊢
    have := ih w (fun x hx => h x (by simp only [List.mem_cons] at hx ⊢; exact .inr hx)) n (nl d) (hnl d)
      (by simp only [List.length_append, List.length_cons] at hn; omega)
    simp only [entry, string, List.length_append, List.length_cons] at hn
    rw [readJItems, skip_append hp, entry, string]
    simp only [List.append_assoc, List.cons_append, List.nil_append]
    rw [skip_cons (by decide)]
    simp only [readChars_string, Option.bind_some]
    rw [skip_cons (by decide)]
    simp only []
    rw [h e (by simp) d n sp _ hsp (ends_cons (by decide) _) (by omega)]
    simp only [Option.bind_some]
    rw [skip_cons (by decide)]
    simp only []
    rw [this]
    rfl

theorem starts_join_elems {fl : Text → Text} (hfl : ∀ r, isJsonNumber (fl r) = true) (nl : Nat → Text) (colon sep : Text) (d : Nat) (v : Value) (l : List Value) :
    Starts (join sep (writeElems fl nl colon d (v :: l))) := by
  obtain ⟨c, r, hc, h⟩ := starts_write hfl nl colon d v
  cases l with
  | nil => simp only [writeElems, join, hc]; exact ⟨c, _, rfl, h⟩
  | cons w l => simp only [writeElems]; rw [join_cons, hc]; exact ⟨c, _, rfl, h⟩

theorem starts_join_items (fl : Text → Text) (nl : Nat → Text) (colon sep : Text) (d : Nat) (e : Text × Value) (l : List (Text × Value)) :
    Starts (join sep ((e :: l).map (entry fl nl colon d))) := by
  have h : Starts (entry fl nl colon d e) := ⟨'"', _, rfl, by decide, by decide, by decide⟩
  obtain ⟨c, r, hc, h⟩ := h
  cases l with
  | nil => simp only [List.map_cons, List.map_nil, join, hc]; exact ⟨c, _, rfl, h⟩
  | cons w l => rw [List.map_cons, List.map_cons, join_cons, hc]; exact ⟨c, _, rfl, h⟩

/-- The text of a dictionary that is not empty, with its entries sorted first. -/
theorem write_dict (fl : Text → Text) (nl : Nat → Text) (colon : Text) (n : Nat) (e : Text × Value) (d : List (Text × Value)) :
    write fl nl colon n (.dict (e :: d)) =
      '{' :: (nl (n + 1) ++ join (',' :: nl (n + 1)) ((sortBy Prod.fst (e :: d)).map (entry fl nl colon (n + 1))) ++ nl n ++ ['}']) := by
  simp only [write]
  rw [writeEntries_eq, ← sortBy_map_val, List.map_map]
  rfl

theorem data_dict (fl : Text → Text) (d : List (Text × Value)) :
    jsonData fl (.dict d) = .obj ((sortBy Prod.fst d).map (fun e => (e.1, jsonData fl e.2))) := by
  simp only [jsonData]
  rw [jsonDataEntries_eq, sortBy_map_val]

theorem sort_cons (e : Text × Value) (d : List (Text × Value)) : ∃ x l, sortBy Prod.fst (e :: d) = x :: l ∧ ∀ y ∈ x :: l, y ∈ e :: d := by
  have hp := sortBy_perm Prod.fst (e :: d)
  cases h : sortBy Prod.fst (e :: d) with
  | nil => rw [h] at hp; exact absurd hp.length_eq (by simp)
  | cons x l => exact ⟨x, l, rfl, fun y hy => hp.mem_iff.1 (h ▸ hy)⟩

theorem reads_write {fl : Text → Text} (hfl : ∀ r, isJsonNumber (fl r) = true) {nl : Nat → Text} {sp : Text} (hnl : ∀ d, ∀ c ∈ nl d, jsonBlank c = true)
    (hsp : ∀ c ∈ sp, jsonBlank c = true) (v : Value) : Reads fl nl (':' :: sp) v := by
  induction v using value_ind with
  | scalar v hs =>
    intro d n pre rest hp he hn
    rcases write_scalar hfl nl (':' :: sp) d v hs with ⟨s, rfl⟩ | ⟨h1, h2, h3⟩
    · simp only [write, string, List.length_cons] at hn ⊢
      obtain ⟨n, rfl⟩ : ∃ m, n = m + 1 := ⟨n - 1, by omega⟩
      rw [readJValue, skip_append hp]
      simp only [List.append_assoc, List.cons_append, List.nil_append]
      rw [skip_cons (by decide)]
      simp only [readChars_string, Option.map_some, jsonData]
    · have : 0 < (write fl nl (':' :: sp) d v).length := List.length_pos_iff.2 h1
      obtain ⟨n, rfl⟩ : ∃ m, n = m + 1 := ⟨n - 1, by omega⟩
      exact readJValue_word n hp h3 h1 h2 he
  | list l ih =>
    intro d n pre rest hp he hn
    cases l with
    | nil =>
      obtain ⟨n, rfl⟩ : ∃ m, n = m + 1 := ⟨n - 1, by simp only [write] at hn; simp [T] at hn; omega⟩
      rw [readJValue, skip_append hp]
      rfl
    | cons v l =>
      obtain ⟨c, r, hc, hb, h1, _⟩ := starts_join_elems hfl nl (':' :: sp) (',' :: nl (d + 1)) (d + 1) v l
      have key := fun n hn => read_elems (colon := ':' :: sp) hnl (d + 1) v l ih n (nl (d + 1)) (nl d) rest (hnl _) (hnl _) hn
      simp only [write, List.length_cons, List.length_append, List.length_nil] at hn ⊢
      obtain ⟨n, rfl⟩ : ∃ m, n = m + 1 := ⟨n - 1, by omega⟩
      have key := key n (by omega)
      rw [readJValue, skip_append hp]
      simp only [List.append_assoc, List.cons_append, List.nil_append]
      rw [skip_cons (by decide)]
      simp only []
      rw [key]
      rw [skip_append (hnl _), hc, List.cons_append, skip_cons hb]
      split
      · rename_i he; cases he; exact absurd rfl h1
      · rfl
  | dict l ih =>
    intro d n pre rest hp he hn
    cases l with
    | nil =>
      obtain ⟨n, rfl⟩ : ∃ m, n = m + 1 := ⟨n - 1, by simp only [write] at hn; simp [T] at hn; omega⟩
      rw [readJValue, skip_append hp]
      rfl
    | cons e l =>
      rw [data_dict]
      rw [write_dict] at hn ⊢
      obtain ⟨x, m, hm, hmem⟩ := sort_cons e l
      rw [hm] at hn ⊢
      obtain ⟨c, r, hc, hb, _, h1⟩ := starts_join_items fl nl (':' :: sp) (',' :: nl (d + 1)) (d + 1) x m
      have key := fun n hn => read_items hnl hsp (d + 1) x m (fun w hw => ih w (hmem w hw)) n (nl (d + 1)) (nl d) rest (hnl _) (hnl _) hn
      simp only [List.length_cons, List.length_append, List.length_nil] at hn ⊢
      obtain ⟨n, rfl⟩ : ∃ m, n = m + 1 := ⟨n - 1, by omega⟩
      have key := key n (by omega)
      rw [readJValue, skip_append hp]
      simp only [List.append_assoc, List.cons_append, List.nil_append]
      rw [skip_cons (by decide)]
      simp only []
      rw [key]
      rw [skip_append (hnl _), hc, List.cons_append, skip_cons hb]
      split
      · rename_i he; cases he; exact absurd rfl h1
      · rfl

/-- Reading what is written gives the data. -/
theorem readJson_write {fl : Text → Text} (hfl : ∀ r, isJsonNumber (fl r) = true) {nl : Nat → Text} {sp : Text} (hnl : ∀ d, ∀ c ∈ nl d, jsonBlank c = true)
    (hsp : ∀ c ∈ sp, jsonBlank c = true) (d : Nat) (v : Value) : readJson (write fl nl (':' :: sp) d v) = some (jsonData fl v) := by
  have h := reads_write hfl hnl hsp v d (2 * (write fl nl (':' :: sp) d v).length) [] [] (by simp) (by intro c r e; cases e) (Nat.le_refl _)
  rw [List.nil_append, List.append_nil] at h
  unfold readJson
  rw [h]
  rfl

/-! ### The characters -/

/-- A character that is no control character and has no meaning in HTML. -/
def Plain (c : Char) : Prop := 32 ≤ c.toNat ∧ c ≠ '<' ∧ c ≠ '>' ∧ c ≠ '&'

theorem plain_word {c : Char} (h : jsonWordChar c = true) : Plain c := by
  refine ⟨?_, ?_, ?_, ?_⟩
  · simp only [jsonWordChar, jsonDigit, Bool.or_eq_true, Bool.and_eq_true, decide_eq_true_eq, beq_iff_eq] at h
    have le : ∀ a b : Char, a ≤ b → a.toNat ≤ b.toNat := fun a b h => h
    rcases h with ((((h | h) | h) | h) | h) | h
    · exact Nat.le_trans (by decide) (le _ _ h.1)
    · exact Nat.le_trans (by decide) (le _ _ h.1)
    all_goals (subst h; decide)
  all_goals (rintro rfl; exact absurd h (by decide))

theorem digitChar_plain : ∀ n : Fin 16, 32 ≤ (Nat.digitChar n.1).toNat ∧ Nat.digitChar n.1 ≠ '<' ∧ Nat.digitChar n.1 ≠ '>' ∧ Nat.digitChar n.1 ≠ '&' := by decide

theorem hex_plain (k n : Nat) : ∀ c ∈ Quote.hex k n, Plain c := by
  induction k generalizing n with
  | zero => intro c hc; cases hc
  | succ k ih =>
    intro c hc
    rw [Quote.hex, List.mem_append] at hc
    rcases hc with hc | hc
    · exact ih _ c hc
    · rw [List.mem_singleton] at hc
      subst hc
      exact digitChar_plain ⟨n % 16, by omega⟩

theorem plain_escape (c : Char) : ∀ x ∈ escape c, Plain x := by
  have two : ∀ a b : Char, Plain a → Plain b → ∀ x ∈ [a, b], Plain x := by
    intro a b ha hb x hx
    simp only [List.mem_cons, List.not_mem_nil, or_false] at hx
    rcases hx with rfl | rfl <;> assumption
  have bs : Plain '\\' := ⟨by decide, by decide, by decide, by decide⟩
  unfold escape
  split
  · rename_i h
    exact two _ _ bs (by rcases h with rfl | rfl <;> exact ⟨by decide, by decide, by decide, by decide⟩)
  split
  · exact two _ _ bs ⟨by decide, by decide, by decide, by decide⟩
  split
  · exact two _ _ bs ⟨by decide, by decide, by decide, by decide⟩
  split
  · exact two _ _ bs ⟨by decide, by decide, by decide, by decide⟩
  split
  · exact two _ _ bs ⟨by decide, by decide, by decide, by decide⟩
  split
  · exact two _ _ bs ⟨by decide, by decide, by decide, by decide⟩
  split
  · intro x hx
    simp only [List.mem_cons] at hx
    rcases hx with rfl | rfl | hx
    · exact bs
    · exact ⟨by decide, by decide, by decide, by decide⟩
    · exact hex_plain _ _ x hx
  · rename_i h
    simp only [not_or] at h
    intro x hx
    rw [List.mem_singleton] at hx
    subst hx
    exact ⟨by omega, h.2.1, h.2.2.1, h.2.2.2.1⟩

theorem plain_string (s : Text) : ∀ c ∈ string s, Plain c := by
  have q : Plain '"' := ⟨by decide, by decide, by decide, by decide⟩
  intro c hc
  simp only [string, List.mem_cons, List.mem_append, List.mem_flatMap, List.not_mem_nil, or_false] at hc
  rcases hc with rfl | ⟨x, _, hx⟩ | rfl
  · exact q
  · exact plain_escape x c hx
  · exact q

theorem plain_join {sep : Text} (hs : ∀ c ∈ sep, Plain c) (l : List Text) (h : ∀ t ∈ l, ∀ c ∈ t, Plain c) : ∀ c ∈ join sep l, Plain c := by
  induction l with
  | nil => intro c hc; cases hc
  | cons x l ih =>
    cases l with
    | nil => simp only [join]; exact h x (by simp)
    | cons y l =>
      intro c hc
      rw [join_cons, List.mem_append, List.mem_append] at hc
      rcases hc with hc | hc | hc
      · exact h x (by simp) c hc
      · exact hs c hc
      · exact ih (fun t ht => h t (List.mem_cons_of_mem _ ht)) c hc

theorem plain_toJson {fl : Text → Text} (hfl : ∀ r, isJsonNumber (fl r) = true) (d : Nat) (v : Value) : ∀ c ∈ write fl (fun _ => []) (T ":") d v, Plain c := by
  induction v using value_ind generalizing d with
  | scalar v hs =>
    rcases write_scalar hfl (fun _ => []) (T ":") d v hs with ⟨s, rfl⟩ | ⟨_, h2, _⟩
    · simp only [write]; exact plain_string s
    · exact fun c hc => plain_word (h2 c hc)
  | list l ih =>
    cases l with
    | nil =>
      have : write fl (fun _ => []) (T ":") d (.list []) = ['[', ']'] := by simp only [write]; rfl
      rw [this]
      intro c hc
      simp only [List.mem_cons, List.not_mem_nil, or_false] at hc
      rcases hc with rfl | rfl <;> exact ⟨by decide, by decide, by decide, by decide⟩
    | cons v l =>
      simp only [write]
      rw [writeElems_eq]
      intro c hc
      simp only [List.nil_append, List.append_nil, List.mem_cons, List.mem_append, List.not_mem_nil, or_false] at hc
      rcases hc with rfl | hc | rfl
      · exact ⟨by decide, by decide, by decide, by decide⟩
      · refine plain_join ?_ _ ?_ c hc
        · intro x hx; rw [List.mem_singleton] at hx; subst hx; exact ⟨by decide, by decide, by decide, by decide⟩
        · intro t ht
          obtain ⟨w, hw, rfl⟩ := List.mem_map.1 ht
          exact ih w hw _
      · exact ⟨by decide, by decide, by decide, by decide⟩
  | dict l ih =>
    cases l with
    | nil =>
      have : write fl (fun _ => []) (T ":") d (.dict []) = ['{', '}'] := by simp only [write]; rfl
      rw [this]
      intro c hc
      simp only [List.mem_cons, List.not_mem_nil, or_false] at hc
      rcases hc with rfl | rfl <;> exact ⟨by decide, by decide, by decide, by decide⟩
    | cons e l =>
      rw [write_dict]
      intro c hc
      simp only [List.nil_append, List.append_nil, List.mem_cons, List.mem_append, List.not_mem_nil, or_false] at hc
      rcases hc with rfl | hc | rfl
      · exact ⟨by decide, by decide, by decide, by decide⟩
      · refine plain_join ?_ _ ?_ c hc
        · intro x hx; rw [List.mem_singleton] at hx; subst hx; exact ⟨by decide, by decide, by decide, by decide⟩
        · intro t ht
          obtain ⟨w, hw, rfl⟩ := List.mem_map.1 ht
          have hw := (sortBy_perm Prod.fst (e :: l)).mem_iff.1 hw
          intro x hx
          simp only [entry, List.mem_append] at hx
          rcases hx with (hx | hx) | hx
          · exact plain_string _ x hx
          · rw [show (T ":" : Text) = [':'] from rfl, List.mem_singleton] at hx
            subst hx
            exact ⟨by decide, by decide, by decide, by decide⟩
          · exact ih w hw _ x hx
      · exact ⟨by decide, by decide, by decide, by decide⟩

/-! ### The quoted form, read as JSON -/

theorem readChars_goEscape (pr : Char → Bool) {c : Char} (hc : 32 ≤ c.toNat) (h : QuotedAlike pr c) (t : Text) :
    readChars (Quote.escape pr c ++ t) = (readChars t).map (fun r => (c :: r.1, r.2)) := by
  unfold Quote.escape
  split
  · rename_i h
    rw [List.cons_append, List.cons_append, List.nil_append, readChars_esc (by rcases h with rfl | rfl <;> decide)]
    rcases h with rfl | rfl <;> rfl
  rename_i h0
  simp only [not_or] at h0
  split
  · exact readChars_plain h0.1 h0.2 (by omega) t
  rename_i hp
  have hbig : 128 ≤ c.toNat ∧ c.toNat < 65536 := by
    unfold Quote.isPrint at hp
    obtain ⟨h1, h2⟩ := h
    split at hp
    · simp at hp; omega
    · rcases h2 with h2 | h2
      · omega
      · exact absurd h2 hp
  rw [if_neg (by omega), if_neg (by omega), if_neg (by omega), if_neg (by omega), if_neg (by omega), if_neg (by omega), if_neg (by omega), if_neg (by omega),
    if_pos hbig.2]
  rw [List.cons_append, List.cons_append, readChars_u (Lemmas.hex_length 4 c.toNat)
    (by rw [Lemmas.hexNumber_hex _ _ _ (by omega), Nat.zero_mul, Nat.zero_add]) (not_surrogate c), Char.ofNat_toNat]

theorem readChars_goEscape_none (pr : Char → Bool) {c : Char} (hc : 32 ≤ c.toNat) (h : ¬ QuotedAlike pr c) (t : Text) :
    readChars (Quote.escape pr c ++ t) = none := by
  have hcase : c.toNat = 127 ∨ (65536 ≤ c.toNat ∧ pr c = false) := by
    unfold QuotedAlike at h
    by_cases h1 : c.toNat = 127
    · exact .inl h1
    · right
      cases hp : pr c with
      | true => exact absurd ⟨h1, .inr hp⟩ h
      | false => exact ⟨Nat.le_of_not_lt (fun hl => h ⟨h1, .inl hl⟩), rfl⟩
  have hq : ¬ (c = '"' ∨ c = '\\') := by
    rintro (rfl | rfl) <;> rcases hcase with h | h <;> revert h <;> simp
  have hnp : ¬ Quote.isPrint pr c = true := by
    unfold Quote.isPrint
    rcases hcase with h | ⟨h, hp⟩
    · simp [h]
    · rw [if_neg (by omega), hp]; simp
  unfold Quote.escape
  rw [if_neg hq, if_neg hnp, if_neg (by omega), if_neg (by omega), if_neg (by omega), if_neg (by omega), if_neg (by omega), if_neg (by omega), if_neg (by omega)]
  rcases hcase with h | ⟨h, _⟩
  · rw [if_pos (by omega), List.cons_append, List.cons_append, readChars_esc (by decide)]; rfl
  · rw [if_neg (by omega), if_neg (by omega), List.cons_append, List.cons_append, readChars_esc (by decide)]; rfl

theorem readChars_goQuoted (pr : Char → Bool) (s t : Text) (hs : ∀ c ∈ s, 32 ≤ c.toNat) :
    ((∀ c ∈ s, QuotedAlike pr c) → readChars (s.flatMap (Quote.escape pr) ++ '"' :: t) = some (s, t)) ∧
    ((∃ c ∈ s, ¬ QuotedAlike pr c) → readChars (s.flatMap (Quote.escape pr) ++ '"' :: t) = none) := by
  induction s with
  | nil => exact ⟨fun _ => by simp [readChars], fun ⟨c, hc, _⟩ => by cases hc⟩
  | cons c s ih =>
    obtain ⟨h1, h2⟩ := ih (fun c hc => hs c (by simp [hc]))
    have h0 := hs c (by simp)
    rw [List.flatMap_cons, List.append_assoc]
    refine ⟨fun h => ?_, fun ⟨x, hx, h⟩ => ?_⟩
    · rw [readChars_goEscape pr h0 (h c (by simp)), h1 (fun c hc => h c (by simp [hc]))]; rfl
    · by_cases hc : QuotedAlike pr c
      · rw [readChars_goEscape pr h0 hc]
        rcases List.mem_cons.1 hx with rfl | hx
        · exact absurd hc h
        · rw [h2 ⟨x, hx, h⟩]; rfl
      · exact readChars_goEscape_none pr h0 hc _

/-- A quoted text is its escaped form between quotes. -/
theorem escape_quote (pr : Char → Bool) (s : Text) : AutoWrap.escape pr s = s.flatMap (Quote.escape pr) := by
  unfold AutoWrap.escape Quote.quote
  simp

end Verif.JsonOut
