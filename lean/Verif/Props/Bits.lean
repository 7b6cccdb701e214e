import Verif.Lemmas.Numbers
import Verif.Spec.NumberSpec
/-!
# C30, C31: hexadecimal texts and bitwise functions
-/

namespace Verif
open Value Numbers Spec

/-! ## C30 -/

theorem hex_int {n : Int} (h : InInt64 n) : hex (.int n) = some (.str (T "0x" ++ hexText n)) := by
  unfold hex process
  simp only [asList]
  rw [toInt_int h]; rfl

theorem decimal_str (s : Text) : decimal (.str s) = (parseInt 16 (Text.trimPrefix (T "0x") s)).map .int := by
  unfold decimal process
  simp only [asList, sprint]

theorem trimPrefix_append (p s : Text) : Text.trimPrefix p (p ++ s) = s := by
  unfold Text.trimPrefix
  rw [Text.dropPrefix?_eq_some.2 rfl]; rfl

theorem trimPrefix_of_not {p s : Text} (h : ¬ p <+: s) : Text.trimPrefix p s = s := by
  unfold Text.trimPrefix
  cases hd : Text.dropPrefix? p s with
  | none => rfl
  | some r => exact absurd ⟨r, (Text.dropPrefix?_eq_some.1 hd).symm⟩ h

/-- C30. `dec (hex n)` is `n`. -/
theorem C30_dec_hex (n : Int) (h : InInt64 n) : (hex (.int n)).bind decimal = some (.int n) := by
  rw [hex_int h, Option.bind_some, decimal_str, trimPrefix_append, parseInt_hexText h]; rfl

/-- C30. `hex` is injective on the 64-bit integers. -/
theorem C30_hex_injective (n m : Int) (hn : InInt64 n) (hm : InInt64 m) (h : hex (.int n) = hex (.int m)) : n = m := by
  have h1 := C30_dec_hex n hn
  rw [h, C30_dec_hex m hm] at h1
  cases h1; rfl

example : hex (.int (-255)) = some (.str (T "0x-FF")) ∧ hex (.int 3735928559) = some (.str (T "0xDEADBEEF")) := by
  constructor <;> rfl

theorem isHexChar_iff (c : Char) (d : Nat) : IsHexChar c d ↔ digitVal c = some d ∧ d < 16 := by
  constructor
  · rintro (h | h)
    all_goals
      have hd : d < 16 := by
        have := (List.getElem?_eq_some_iff.1 h).1
        exact this
      refine ⟨?_, hd⟩
    · have : ∀ d : Fin 16, ∀ c, (T "0123456789abcdef")[d.val]? = some c → digitVal c = some d.val := by
        have : ∀ d : Fin 16, ((T "0123456789abcdef")[d.val]?).bind digitVal = some d.val := by decide
        intro d c hc
        have := this d
        rwa [hc, Option.bind_some] at this
      exact this ⟨d, hd⟩ c h
    · have : ∀ d : Fin 16, ∀ c, (T "0123456789ABCDEF")[d.val]? = some c → digitVal c = some d.val := by
        have : ∀ d : Fin 16, ((T "0123456789ABCDEF")[d.val]?).bind digitVal = some d.val := by decide
        intro d c hc
        have := this d
        rwa [hc, Option.bind_some] at this
      exact this ⟨d, hd⟩ c h
  · rintro ⟨h, hd⟩
    have hc : c = Char.ofNat c.toNat := by simp
    unfold digitVal at h
    simp only at h
    have low : ∀ k : Fin 10, (T "0123456789abcdef")[k.val]? = some (Char.ofNat (48 + k.val)) := by decide
    have mid : ∀ k : Fin 6, (T "0123456789abcdef")[10 + k.val]? = some (Char.ofNat (97 + k.val)) := by decide
    have up : ∀ k : Fin 6, (T "0123456789ABCDEF")[10 + k.val]? = some (Char.ofNat (65 + k.val)) := by decide
    split at h
    · rename_i hr
      cases h
      left
      have := low ⟨c.toNat - 48, by omega⟩
      simp only at this
      rw [this, show 48 + (c.toNat - 48) = c.toNat by omega, ← hc]
    · split at h
      · rename_i hr
        cases h
        left
        have := mid ⟨c.toNat - 97, by omega⟩
        simp only at this
        rw [show c.toNat - 97 + 10 = 10 + (c.toNat - 97) by omega, this,
          show 97 + (c.toNat - 97) = c.toNat by omega, ← hc]
      · split at h
        · rename_i hr
          cases h
          right
          have := up ⟨c.toNat - 65, by omega⟩
          simp only at this
          rw [show c.toNat - 65 + 10 = 10 + (c.toNat - 65) by omega, this,
            show 65 + (c.toNat - 65) = c.toNat by omega, ← hc]
        · cases h

theorem digitsLoop_iff (s : Text) (acc n : Nat) :
    digitsLoop 16 s acc = some n ↔
      ∃ ds : List Nat, List.Forall₂ IsHexChar s ds ∧ n = acc * 16 ^ ds.length + positional 16 ds := by
  induction s generalizing acc with
  | nil =>
    simp only [digitsLoop, Option.some.injEq]
    constructor
    · rintro rfl; exact ⟨[], .nil, by simp [positional]⟩
    · rintro ⟨ds, h, e⟩; cases h; simpa [positional] using e.symm
  | cons c cs ih =>
    simp only [digitsLoop]
    constructor
    · intro h
      cases hd : digitVal c with
      | none => rw [hd] at h; cases h
      | some d =>
        rw [hd] at h
        simp only at h
        split at h
        · rename_i hlt
          obtain ⟨ds, h1, h2⟩ := (ih _).1 h
          refine ⟨d :: ds, .cons ((isHexChar_iff c d).2 ⟨hd, hlt⟩) h1, ?_⟩
          rw [h2, positional, List.length_cons, Nat.pow_succ, Nat.add_mul, Nat.mul_assoc, Nat.mul_comm 16]
          omega
        · cases h
    · rintro ⟨ds, h, e⟩
      cases h with
      | cons hc hcs =>
        rename_i d ds
        obtain ⟨hd, hlt⟩ := (isHexChar_iff c d).1 hc
        rw [hd]
        simp only [if_pos hlt]
        refine (ih _).2 ⟨ds, hcs, ?_⟩
        rw [e, positional, List.length_cons, Nat.pow_succ, Nat.add_mul, Nat.mul_assoc, Nat.mul_comm 16]
        omega

theorem parseUint_iff (s : Text) (n : Nat) : parseUint 16 s = some n ↔ HexDigits s n ∧ n < 2 ^ 64 := by
  unfold parseUint HexDigits
  by_cases hs : s = []
  · simp [hs]
  · rw [if_neg hs]
    have := digitsLoop_iff s 0
    simp only [Nat.zero_mul, Nat.zero_add] at this
    constructor
    · intro h
      cases hl : digitsLoop 16 s 0 with
      | none => rw [hl] at h; cases h
      | some m =>
        rw [hl] at h
        simp only at h
        split at h
        · rename_i hlt
          cases h
          exact ⟨⟨hs, (this _).1 hl⟩, hlt⟩
        · cases h
    · rintro ⟨⟨_, h⟩, hlt⟩
      rw [(this n).2 h]
      simp only [if_pos hlt]

theorem sign_not_digits {c : Char} (hc : digitVal c = none) (r : Text) (n : Nat) : ¬ HexDigits (c :: r) n := by
  rintro ⟨_, ds, h, _⟩
  cases h with
  | cons h1 _ => have := ((isHexChar_iff _ _).1 h1).1; rw [hc] at this; cases this

theorem parseInt_iff (s : Text) (z : Int) : parseInt 16 s = some z ↔ HexNumber s z ∧ InInt64 z := by
  have plus := fun r n => sign_not_digits (c := '+') (by decide) r n
  have minus := fun r n => sign_not_digits (c := '-') (by decide) r n
  unfold parseInt HexNumber InInt64
  split
  rename_i neg digits heq
  split at heq
  · -- a plus sign
    cases heq
    constructor
    · intro h
      cases hp : parseUint 16 digits with
      | none => rw [hp] at h; cases h
      | some n =>
        rw [hp] at h
        simp only [Bool.false_eq_true, if_false] at h
        split at h
        · cases h
          exact ⟨Or.inr (Or.inl ⟨digits, n, rfl, ((parseUint_iff digits n).1 hp).1, rfl⟩), by omega, by omega⟩
        · cases h
    · rintro ⟨h | h | h, h1, h2⟩
      · obtain ⟨n, h, _⟩ := h
        exact absurd h (plus _ _)
      · obtain ⟨r', n, e, h, rfl⟩ := h
        cases e
        rw [(parseUint_iff digits n).2 ⟨h, by omega⟩]
        simp only [Bool.false_eq_true, if_false]
        rw [if_pos (by omega)]
      · obtain ⟨r', n, e, h, rfl⟩ := h
        cases e
  · cases heq
    constructor
    · intro h
      cases hp : parseUint 16 digits with
      | none => rw [hp] at h; cases h
      | some n =>
        rw [hp] at h
        simp only [if_true] at h
        split at h
        · cases h
          exact ⟨Or.inr (Or.inr ⟨digits, n, rfl, ((parseUint_iff digits n).1 hp).1, rfl⟩), by omega, by omega⟩
        · cases h
    · rintro ⟨h | h | h, h1, h2⟩
      · obtain ⟨n, h, _⟩ := h
        exact absurd h (minus _ _)
      · obtain ⟨r', n, e, h, rfl⟩ := h
        cases e
      · obtain ⟨r', n, e, h, rfl⟩ := h
        cases e
        rw [(parseUint_iff digits n).2 ⟨h, by omega⟩]
        simp only [if_true]
        rw [if_pos (by omega)]
  · rename_i n1 n2
    cases heq
    constructor
    · intro h
      cases hp : parseUint 16 s with
      | none => rw [hp] at h; cases h
      | some n =>
        rw [hp] at h
        simp only [Bool.false_eq_true, if_false] at h
        split at h
        · cases h
          exact ⟨Or.inl ⟨n, ((parseUint_iff s n).1 hp).1, rfl⟩, by omega, by omega⟩
        · cases h
    · rintro ⟨h | h | h, h1, h2⟩
      · obtain ⟨n, h, rfl⟩ := h
        rw [(parseUint_iff s n).2 ⟨h, by omega⟩]
        simp only [Bool.false_eq_true, if_false]
        rw [if_pos (by omega)]
      · obtain ⟨r', n, e, _⟩ := h
        exact absurd e (n1 r')
      · obtain ⟨r', n, e, _⟩ := h
        exact absurd e (n2 r')

/-- C30. `dec` accepts exactly the hexadecimal numbers in the 64-bit range, with or without the prefix `0x`, and returns their
value; every other text is an error. -/
theorem C30_dec_accepts (s : Text) (v : Value) :
    decimal (.str s) = some v ↔
      ∃ z : Int, v = .int z ∧ InInt64 z ∧ (HexNumber s z ∨ ∃ t, s = T "0x" ++ t ∧ HexNumber t z) := by
  rw [decimal_str]
  have noX : ∀ t z, ¬ HexNumber (T "0x" ++ t) z := by
    intro t z
    rw [show T "0x" = ['0', 'x'] from rfl]
    revert t z
    rintro t z (⟨n, ⟨_, ds, h, _⟩, _⟩ | ⟨r, n, e, _⟩ | ⟨r, n, e, _⟩)
    · cases h with
      | cons _ h2 =>
        cases h2 with
        | cons h3 _ =>
          have := (isHexChar_iff _ _).1 h3
          have e : digitVal 'x' = some 33 := by decide
          rw [e] at this
          have h4 := this.1
          cases h4
          exact absurd this.2 (by decide)
    · exact absurd (List.cons.inj e).1 (by decide)
    · exact absurd (List.cons.inj e).1 (by decide)
  by_cases hp : T "0x" <+: s
  · obtain ⟨t, rfl⟩ := hp
    rw [trimPrefix_append]
    constructor
    · intro h
      obtain ⟨z, hz, rfl⟩ := Option.map_eq_some_iff.1 h
      obtain ⟨h1, h2⟩ := (parseInt_iff t z).1 hz
      exact ⟨z, rfl, h2, Or.inr ⟨t, rfl, h1⟩⟩
    · rintro ⟨z, rfl, hr, h | ⟨t', e, h⟩⟩
      · exact absurd h (noX t z)
      · rw [List.append_cancel_left e, (parseInt_iff t' z).2 ⟨h, hr⟩]; rfl
  · rw [trimPrefix_of_not hp]
    constructor
    · intro h
      obtain ⟨z, hz, rfl⟩ := Option.map_eq_some_iff.1 h
      obtain ⟨h1, h2⟩ := (parseInt_iff s z).1 hz
      exact ⟨z, rfl, h2, Or.inl h1⟩
    · rintro ⟨z, rfl, hr, h | ⟨t', e, h⟩⟩
      · rw [(parseInt_iff s z).2 ⟨h, hr⟩]; rfl
      · exact absurd ⟨t', e.symm⟩ hp

example : HexNumber (T "fF") 255 := by
  refine Or.inl ⟨255, ⟨by decide, [15, 15], .cons (Or.inl (by decide)) (.cons (Or.inr (by decide)) .nil), by decide⟩, rfl⟩

example : decimal (.str (T "0x8000000000000000")) = none ∧ decimal (.str (T "12G")) = none ∧
    decimal (.str (T "-0x1")) = none := by decide +kernel

/-! ## C31 -/

theorem bit_word (w : Word) (i : Nat) (hi : i < 64) : bit w.toInt i = w.getLsbD i := by
  have h1 : w.getLsbD i = decide (w.toNat / 2 ^ i % 2 = 1) := by
    rw [BitVec.getLsbD, Nat.testBit_eq_decide_div_mod_eq]
  rw [h1]
  unfold bit
  have hn : (w.toNat : Int) / 2 ^ i % 2 = ((w.toNat / 2 ^ i % 2 : Nat) : Int) := by simp
  rcases Nat.lt_or_ge (2 * w.toNat) (2 ^ 64) with h | h
  · rw [BitVec.toInt_eq_toNat_of_lt h, hn]
    congr 1
    exact propext ⟨fun h => by exact_mod_cast h, fun h => by exact_mod_cast h⟩
  · have ht : w.toInt = (w.toNat : Int) - 2 ^ 64 := by
      rw [BitVec.toInt_eq_toNat_cond, if_neg (by omega)]; rfl
    rw [ht]
    have e : (2 : Int) ^ 64 = 2 ^ (63 - i) * 2 * 2 ^ i := by
      rw [Int.mul_assoc, ← Int.pow_succ', ← Int.pow_add]
      congr 1; omega
    have hp : (2 : Int) ^ i ≠ 0 := by
      have : (0 : Int) < 2 ^ i := Int.pow_pos (by omega)
      omega
    rw [e, Int.sub_mul_ediv_right _ _ hp]
    have : ((w.toNat : Int) / 2 ^ i - 2 ^ (63 - i) * 2) % 2 = (w.toNat : Int) / 2 ^ i % 2 := by omega
    rw [this, hn]
    congr 1
    exact propext ⟨fun h => by exact_mod_cast h, fun h => by exact_mod_cast h⟩

theorem bit_ofInt {n : Int} (h : InInt64 n) (i : Nat) (hi : i < 64) : (BitVec.ofInt 64 n).getLsbD i = bit n i := by
  rw [← bit_word _ i hi, BitVec.toInt_ofInt_eq_self (by omega) (by have := h.1; simpa using this) (by have := h.2; simpa using this)]

theorem word_range (w : Word) : InInt64 w.toInt := ⟨by have := BitVec.le_toInt w; simpa using this, by have := BitVec.toInt_lt (x := w); simpa using this⟩

/-- A 64-bit integer is determined by its bits. -/
theorem bits_ext {n m : Int} (hn : InInt64 n) (hm : InInt64 m) (h : ∀ i < 64, bit n i = bit m i) : n = m := by
  have : BitVec.ofInt 64 n = BitVec.ofInt 64 m := by
    apply BitVec.eq_of_getLsbD_eq
    intro i hi
    rw [bit_ofInt hn i hi, bit_ofInt hm i hi, h i hi]
  have := congrArg BitVec.toInt this
  rwa [BitVec.toInt_ofInt_eq_self (by omega) (by have := hn.1; simpa using this) (by have := hn.2; simpa using this),
    BitVec.toInt_ofInt_eq_self (by omega) (by have := hm.1; simpa using this) (by have := hm.2; simpa using this)] at this

theorem mapM_words (l : List Int) (h : ∀ n ∈ l, InInt64 n) :
    (l.map Value.int).mapM toWord = some (l.map (BitVec.ofInt 64)) := by
  induction l with
  | nil => rfl
  | cons n l ih =>
    rw [List.map_cons, List.mapM_cons, toWord_int (h n (by simp)), ih (fun m hm => h m (by simp [hm]))]
    rfl

theorem bitwise_ints (op : Word → Word → Word) (a b : Int) (rest : List Int) (h : ∀ n ∈ a :: b :: rest, InInt64 n) :
    bitwise op (.int a) (.int b) (rest.map .int) =
      some (.int ((rest.map (BitVec.ofInt 64)).foldl op (op (BitVec.ofInt 64 a) (BitVec.ofInt 64 b))).toInt) := by
  unfold bitwise
  rw [toWord_int (h a (by simp)), toWord_int (h b (by simp)), mapM_words rest (fun n hn => h n (by simp [hn]))]
  rfl

/-- C31. `bor`: a bit of the result is set exactly when it is set in one of the arguments. -/
theorem C31_or (a b : Int) (rest : List Int) (h : ∀ n ∈ a :: b :: rest, InInt64 n) :
    ∃ r, bitwiseOr (.int a) (.int b) (rest.map .int) = some (.int r) ∧ InInt64 r ∧
      ∀ i < 64, bit r i = (a :: b :: rest).any (fun n => bit n i) := by
  refine ⟨_, bitwise_ints _ a b rest h, word_range _, ?_⟩
  intro i hi
  have hl : ∀ (l : List Int) (w : Word), (∀ n ∈ l, InInt64 n) →
      ((l.map (BitVec.ofInt 64)).foldl (· ||| ·) w).getLsbD i = (w.getLsbD i || l.any (fun n => bit n i)) := by
    intro l
    induction l with
    | nil => simp
    | cons n l ih =>
      intro w hw
      simp only [List.map_cons, List.foldl_cons]
      rw [ih _ (fun m hm => hw m (by simp [hm])), BitVec.getLsbD_or, bit_ofInt (hw n (by simp)) i hi]
      simp [Bool.or_assoc]
  rw [bit_word _ i hi, hl rest _ (fun n hn => h n (by simp [hn])), BitVec.getLsbD_or,
    bit_ofInt (h a (by simp)) i hi, bit_ofInt (h b (by simp)) i hi]
  simp [Bool.or_assoc]

/-- C31. `band`: a bit of the result is set exactly when it is set in all the arguments. -/
theorem C31_and (a b : Int) (rest : List Int) (h : ∀ n ∈ a :: b :: rest, InInt64 n) :
    ∃ r, bitwiseAnd (.int a) (.int b) (rest.map .int) = some (.int r) ∧ InInt64 r ∧
      ∀ i < 64, bit r i = (a :: b :: rest).all (fun n => bit n i) := by
  refine ⟨_, bitwise_ints _ a b rest h, word_range _, ?_⟩
  intro i hi
  have hl : ∀ (l : List Int) (w : Word), (∀ n ∈ l, InInt64 n) →
      ((l.map (BitVec.ofInt 64)).foldl (· &&& ·) w).getLsbD i = (w.getLsbD i && l.all (fun n => bit n i)) := by
    intro l
    induction l with
    | nil => simp
    | cons n l ih =>
      intro w hw
      simp only [List.map_cons, List.foldl_cons]
      rw [ih _ (fun m hm => hw m (by simp [hm])), BitVec.getLsbD_and, bit_ofInt (hw n (by simp)) i hi]
      simp [Bool.and_assoc]
  rw [bit_word _ i hi, hl rest _ (fun n hn => h n (by simp [hn])), BitVec.getLsbD_and,
    bit_ofInt (h a (by simp)) i hi, bit_ofInt (h b (by simp)) i hi]
  simp [Bool.and_assoc]

/-- C31. `bclear`: a bit of the result is set exactly when it is set in the first argument and in none of the others. -/
theorem C31_clear (a b : Int) (rest : List Int) (h : ∀ n ∈ a :: b :: rest, InInt64 n) :
    ∃ r, bitwiseClear (.int a) (.int b) (rest.map .int) = some (.int r) ∧ InInt64 r ∧
      ∀ i < 64, bit r i = (bit a i && !(b :: rest).any (fun n => bit n i)) := by
  refine ⟨_, bitwise_ints _ a b rest h, word_range _, ?_⟩
  intro i hi
  have hl : ∀ (l : List Int) (w : Word), (∀ n ∈ l, InInt64 n) →
      ((l.map (BitVec.ofInt 64)).foldl (fun x y => x &&& ~~~y) w).getLsbD i =
        (w.getLsbD i && !l.any (fun n => bit n i)) := by
    intro l
    induction l with
    | nil => simp
    | cons n l ih =>
      intro w hw
      simp only [List.map_cons, List.foldl_cons]
      rw [ih _ (fun m hm => hw m (by simp [hm])), BitVec.getLsbD_and, BitVec.getLsbD_not,
        bit_ofInt (hw n (by simp)) i hi]
      simp [hi, Bool.and_assoc]
  rw [bit_word _ i hi, hl rest _ (fun n hn => h n (by simp [hn])), BitVec.getLsbD_and, BitVec.getLsbD_not,
    bit_ofInt (h a (by simp)) i hi, bit_ofInt (h b (by simp)) i hi]
  simp [hi, Bool.and_assoc]

/-- C31. `bxor`: a bit of the result is set exactly when it is set in an odd number of arguments. -/
theorem C31_xor (a b : Int) (rest : List Int) (h : ∀ n ∈ a :: b :: rest, InInt64 n) :
    ∃ r, bitwiseXor (.int a) (.int b) (rest.map .int) = some (.int r) ∧ InInt64 r ∧
      ∀ i < 64, bit r i = decide ((a :: b :: rest).countP (fun n => bit n i) % 2 = 1) := by
  refine ⟨_, bitwise_ints _ a b rest h, word_range _, ?_⟩
  intro i hi
  have parity : ∀ (c : Nat) (x : Bool), decide ((c + (if x = true then 1 else 0)) % 2 = 1) = (x ^^ decide (c % 2 = 1)) := by
    intro c x
    cases x
    · simp
    · rcases Nat.mod_two_eq_zero_or_one c with h | h <;> simp [Nat.add_mod, h]
  have hl : ∀ (l : List Int) (w : Word), (∀ n ∈ l, InInt64 n) →
      ((l.map (BitVec.ofInt 64)).foldl (· ^^^ ·) w).getLsbD i =
        (w.getLsbD i ^^ decide (l.countP (fun n => bit n i) % 2 = 1)) := by
    intro l
    induction l with
    | nil => simp
    | cons n l ih =>
      intro w hw
      simp only [List.map_cons, List.foldl_cons]
      rw [ih _ (fun m hm => hw m (by simp [hm])), BitVec.getLsbD_xor, bit_ofInt (hw n (by simp)) i hi,
        List.countP_cons, parity, Bool.xor_assoc]
  rw [bit_word _ i hi, hl rest _ (fun n hn => h n (by simp [hn])), BitVec.getLsbD_xor,
    bit_ofInt (h a (by simp)) i hi, bit_ofInt (h b (by simp)) i hi, List.countP_cons, List.countP_cons, parity, parity,
    Bool.xor_assoc]

/-- C31. The order of the arguments of `bor`, `band` and `bxor` is irrelevant. -/
theorem C31_order (a b a' b' : Int) (rest rest' : List Int) (hp : (a :: b :: rest).Perm (a' :: b' :: rest'))
    (h : ∀ n ∈ a :: b :: rest, InInt64 n) :
    bitwiseOr (.int a) (.int b) (rest.map .int) = bitwiseOr (.int a') (.int b') (rest'.map .int) ∧
    bitwiseAnd (.int a) (.int b) (rest.map .int) = bitwiseAnd (.int a') (.int b') (rest'.map .int) ∧
    bitwiseXor (.int a) (.int b) (rest.map .int) = bitwiseXor (.int a') (.int b') (rest'.map .int) := by
  have h' : ∀ n ∈ a' :: b' :: rest', InInt64 n := fun n hn => h n (hp.mem_iff.2 hn)
  refine ⟨?_, ?_, ?_⟩
  · obtain ⟨r, e, hr, hb⟩ := C31_or a b rest h
    obtain ⟨r', e', hr', hb'⟩ := C31_or a' b' rest' h'
    rw [e, e', bits_ext hr hr' (fun i hi => by rw [hb i hi, hb' i hi, hp.any_eq])]
  · obtain ⟨r, e, hr, hb⟩ := C31_and a b rest h
    obtain ⟨r', e', hr', hb'⟩ := C31_and a' b' rest' h'
    rw [e, e', bits_ext hr hr' (fun i hi => by rw [hb i hi, hb' i hi, hp.all_eq])]
  · obtain ⟨r, e, hr, hb⟩ := C31_xor a b rest h
    obtain ⟨r', e', hr', hb'⟩ := C31_xor a' b' rest' h'
    rw [e, e', bits_ext hr hr' (fun i hi => by rw [hb i hi, hb' i hi, hp.countP_eq])]

/-- C31. The order of the masks of `bclear` is irrelevant. -/
theorem C31_clear_order (a b b' : Int) (rest rest' : List Int) (hp : (b :: rest).Perm (b' :: rest'))
    (h : ∀ n ∈ a :: b :: rest, InInt64 n) :
    bitwiseClear (.int a) (.int b) (rest.map .int) = bitwiseClear (.int a) (.int b') (rest'.map .int) := by
  have h' : ∀ n ∈ a :: b' :: rest', InInt64 n := fun n hn => h n ((hp.cons a).mem_iff.2 hn)
  obtain ⟨r, e, hr, hb⟩ := C31_clear a b rest h
  obtain ⟨r', e', hr', hb'⟩ := C31_clear a b' rest' h'
  rw [e, e', bits_ext hr hr' (fun i hi => by rw [hb i hi, hb' i hi, hp.any_eq])]

example : bitwiseOr (.int 5) (.int (-8)) [.int 2] = some (.int (-1)) ∧
    bitwiseClear (.int (-1)) (.int 3) [.str (T "12")] = some (.int (-16)) ∧
    bitwiseXor (.int (-2 ^ 63)) (.int (-1)) [] = some (.int (2 ^ 63 - 1)) := ⟨rfl, rfl, rfl⟩

theorem toUnsigned_nat {n : Nat} (h : n < 2 ^ 64) : toUnsigned (.int n) = some n := by
  have := digitsLoop_toDigits 10 (by omega) (by omega) id (fun d hd => digitVal_digitChar (by omega)) n
  unfold toUnsigned
  exact parseUint_digits (by simp [sprint, intText]) (by simpa [sprint, intText] using this) h

/-- C31. `lshift` by `n` multiplies by `2 ^ n`, modulo `2 ^ 64`. -/
theorem C31_lshift (a : Int) (n : Nat) (ha : InInt64 a) (hn : n < 2 ^ 64) :
    ∃ r k : Int, leftShift (.int a) (.int n) = some (.int r) ∧ InInt64 r ∧ a * 2 ^ n = r + k * 2 ^ 64 := by
  have e : leftShift (.int a) (.int n) = some (.int (BitVec.ofInt 64 a <<< n).toInt) := by
    unfold leftShift process
    simp only [asList]
    rw [toWord_int ha, toUnsigned_nat hn]; rfl
  have wrap : ∀ w : Word, ∃ c : Int, (w.toNat : Int) = w.toInt + c * 2 ^ 64 := by
    intro w
    rw [BitVec.toInt_eq_toNat_cond]
    split
    · exact ⟨0, by omega⟩
    · exact ⟨1, by omega⟩
  obtain ⟨c, hc⟩ := wrap (BitVec.ofInt 64 a)
  obtain ⟨c', hc'⟩ := wrap (BitVec.ofInt 64 a <<< n)
  rw [BitVec.toInt_ofInt_eq_self (show 0 < 64 by omega) (show -2 ^ (64 - 1) ≤ a from ha.1)
    (show a < 2 ^ (64 - 1) from ha.2)] at hc
  rw [BitVec.toNat_shiftLeft, Nat.shiftLeft_eq] at hc'
  have hd := Nat.div_add_mod ((BitVec.ofInt 64 a).toNat * 2 ^ n) (2 ^ 64)
  generalize hq : (BitVec.ofInt 64 a).toNat * 2 ^ n / 2 ^ 64 = q at hd
  have hd' : (2 ^ 64 : Int) * q + ((BitVec.ofInt 64 a).toNat * 2 ^ n % 2 ^ 64 : Nat) =
      ((BitVec.ofInt 64 a).toNat : Int) * 2 ^ n := by exact_mod_cast hd
  rw [hc', hc, Int.add_mul] at hd'
  refine ⟨_, q + c' - c * 2 ^ n, e, word_range _, ?_⟩
  have e2 : (c * 2 ^ 64 : Int) * 2 ^ n = c * 2 ^ n * 2 ^ 64 := by rw [Int.mul_assoc, Int.mul_comm (2 ^ 64), ← Int.mul_assoc]
  rw [e2] at hd'
  generalize (c * 2 ^ n : Int) = u at *
  omega

/-- C31. `rshift` by `n` is the division by `2 ^ n` rounded down. -/
theorem C31_rshift (a : Int) (n : Nat) (ha : InInt64 a) (hn : n < 2 ^ 64) :
    rightShift (.int a) (.int n) = some (.int (a / 2 ^ n)) := by
  unfold rightShift process
  simp only [asList]
  rw [toWord_int ha, toUnsigned_nat hn]
  simp only [Option.pure_def, Option.bind_eq_bind, Option.bind_some, BitVec.toInt_sshiftRight, Int.shiftRight_eq_div_pow,
    BitVec.toInt_ofInt_eq_self (show 0 < 64 by omega) (show -2 ^ (64 - 1) ≤ a from ha.1) (show a < 2 ^ (64 - 1) from ha.2)]
  norm_cast

/-- C31. A negative shift count is an error. -/
theorem C31_negative_count (a : Int) (n : Nat) (ha : InInt64 a) :
    leftShift (.int a) (.int (.negSucc n)) = none ∧ rightShift (.int a) (.int (.negSucc n)) = none := by
  have : toUnsigned (.int (.negSucc n)) = none := by
    have e : digitsLoop 10 ('-' :: Nat.toDigits 10 (n + 1)) 0 = none := by
      unfold digitsLoop
      rw [show digitVal '-' = none by decide]
    have e2 : sprint (.int (.negSucc n)) = '-' :: Nat.toDigits 10 (n + 1) := by simp [sprint, intText]
    unfold toUnsigned
    rw [e2]
    unfold parseUint
    rw [if_neg (by simp), e]
  constructor
  · unfold leftShift process
    simp only [asList]
    rw [toWord_int ha, this]; rfl
  · unfold rightShift process
    simp only [asList]
    rw [toWord_int ha, this]; rfl

example : leftShift (.list [.int 3, .int (-1)]) (.int 63) = some (.list [.int (-2 ^ 63), .int (-2 ^ 63)]) ∧
    rightShift (.int (-5)) (.int 1) = some (.int (-3)) := ⟨rfl, rfl⟩

end Verif
