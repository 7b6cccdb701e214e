import Verif.Model.Quote
import Verif.Spec.QuoteSpec
/-!
# Lemmas on quoted texts
-/

namespace Verif
namespace Lemmas
open Spec Quote

theorem hexValue_digit : ∀ n : Fin 16, hexValue (Nat.digitChar n.1) = some n.1 := by decide

theorem hexValue_digitChar {n : Nat} (h : n < 16) : hexValue (Nat.digitChar n) = some n := hexValue_digit ⟨n, h⟩

theorem hexNumber_append (n : Nat) (a b : Text) : hexNumber n (a ++ b) = (hexNumber n a).bind (fun m => hexNumber m b) := by
  induction a generalizing n with
  | nil => rfl
  | cons c a ih =>
    simp only [List.cons_append, hexNumber]
    cases hexValue c with
    | none => rfl
    | some d => simp [ih]

theorem hexNumber_hex (k n m : Nat) (h : n < 16 ^ k) : hexNumber m (hex k n) = some (m * 16 ^ k + n) := by
  induction k generalizing n with
  | zero => simp at h; subst h; simp [hex, hexNumber]
  | succ k ih =>
    have h1 : n / 16 < 16 ^ k := by rw [Nat.pow_succ] at h; omega
    rw [hex, hexNumber_append, ih _ h1]
    simp only [Option.bind_some, hexNumber, hexValue_digitChar (Nat.mod_lt n (by omega : 0 < 16)), Option.bind_some, Option.some.injEq]
    rw [Nat.pow_succ]
    have := Nat.div_add_mod n 16
    have e : m * (16 ^ k * 16) = m * 16 ^ k * 16 := by rw [Nat.mul_assoc]
    omega

theorem hex_length (k n : Nat) : (hex k n).length = k := by
  induction k generalizing n with
  | zero => rfl
  | succ k ih => simp [hex, ih]

theorem charThen_hex (k : Nat) (c : Char) (h : c.toNat < 16 ^ k) (t : Option Text) : charThen (hex k c.toNat) t = t.map (fun t => c :: t) := by
  simp [charThen, hexNumber_hex k c.toNat 0 h, Char.ofNat_toNat]

theorem readQuoted_plain {c : Char} (h1 : c ≠ '"') (h2 : c ≠ '\\') (h3 : c ≠ '\n') (t : Text) :
    readQuoted (c :: t) = (readQuoted t).map (fun t => c :: t) := by
  rw [readQuoted.eq_def]
  split
  · rename_i h; simp at h; exact absurd h.1 h1
  · rename_i h; simp at h; exact absurd h.1 h2
  · rename_i h; simp at h; exact absurd h.1 h2
  · rename_i h; simp at h; exact absurd h.1 h2
  · rename_i h; simp at h; exact absurd h.1 h2
  · rename_i h
    simp only [List.cons.injEq] at h
    obtain ⟨rfl, rfl⟩ := h
    simp [h1, h2, h3]
  · rename_i h; simp at h

theorem readQuoted_esc {c : Char} (h1 : c ≠ 'x') (h2 : c ≠ 'u') (h3 : c ≠ 'U') (t : Text) :
    readQuoted ('\\' :: c :: t) =
      (if c = '"' ∨ c = '\\' then some c else if c = 'a' then some (Char.ofNat 7) else if c = 'b' then some (Char.ofNat 8)
       else if c = 'f' then some (Char.ofNat 12) else if c = 'n' then some '\n' else if c = 'r' then some '\r' else if c = 't' then some '\t'
       else if c = 'v' then some (Char.ofNat 11) else none).bind (fun c => (readQuoted t).map (fun t => c :: t)) := by
  rw [readQuoted.eq_def]
  split
  · rename_i h; simp at h
  · rename_i h; simp at h; exact absurd h.1 h1
  · rename_i h; simp at h; exact absurd h.1 h2
  · rename_i h; simp at h; exact absurd h.1 h3
  · rename_i h
    simp only [List.cons.injEq, true_and] at h
    obtain ⟨rfl, rfl⟩ := h
    rfl
  · rename_i h1 h2 h
    simp only [List.cons.injEq] at h
    obtain ⟨rfl, rfl⟩ := h
    simp at h2
  · rename_i h; simp at h

theorem exists2 {l : Text} (h : l.length = 2) : ∃ a b, l = [a, b] := by
  match l, h with
  | [a, b], _ => exact ⟨a, b, rfl⟩

theorem exists4 {l : Text} (h : l.length = 4) : ∃ a b c d, l = [a, b, c, d] := by
  match l, h with
  | [a, b, c, d], _ => exact ⟨a, b, c, d, rfl⟩

theorem exists8 {l : Text} (h : l.length = 8) : ∃ a b c d e f g i, l = [a, b, c, d, e, f, g, i] := by
  match l, h with
  | [a, b, c, d, e, f, g, i], _ => exact ⟨a, b, c, d, e, f, g, i, rfl⟩

theorem char_of_toNat {c d : Char} (h : c.toNat = d.toNat) : c = d := by
  rw [← Char.ofNat_toNat c, h, Char.ofNat_toNat]

/-- An escaped character is read as that character. -/
theorem readQuoted_escape (pr : Char → Bool) (c : Char) (t : Text) : readQuoted (escape pr c ++ t) = (readQuoted t).map (fun t => c :: t) := by
  unfold escape
  split
  · rename_i h
    rcases h with rfl | rfl
    · simp only [List.cons_append, List.nil_append]
      rw [readQuoted_esc (by decide) (by decide) (by decide)]; rfl
    · simp only [List.cons_append, List.nil_append]
      rw [readQuoted_esc (by decide) (by decide) (by decide)]; rfl
  rename_i hq
  have hq1 : c ≠ '"' := fun h => hq (.inl h)
  have hq2 : c ≠ '\\' := fun h => hq (.inr h)
  split
  · rename_i hp
    simp only [List.cons_append, List.nil_append]
    refine readQuoted_plain hq1 hq2 ?_ t
    rintro rfl
    simp [isPrint] at hp
  split
  · rename_i h
    have : c = Char.ofNat 7 := char_of_toNat h
    subst this
    simp only [List.cons_append, List.nil_append]
    rw [readQuoted_esc (by decide) (by decide) (by decide)]; rfl
  split
  · rename_i h
    have : c = Char.ofNat 8 := char_of_toNat h
    subst this
    simp only [List.cons_append, List.nil_append]
    rw [readQuoted_esc (by decide) (by decide) (by decide)]; rfl
  split
  · rename_i h
    have : c = Char.ofNat 12 := char_of_toNat h
    subst this
    simp only [List.cons_append, List.nil_append]
    rw [readQuoted_esc (by decide) (by decide) (by decide)]; rfl
  split
  · rename_i h
    have : c = '\n' := char_of_toNat h
    subst this
    simp only [List.cons_append, List.nil_append]
    rw [readQuoted_esc (by decide) (by decide) (by decide)]; rfl
  split
  · rename_i h
    have : c = '\r' := char_of_toNat h
    subst this
    simp only [List.cons_append, List.nil_append]
    rw [readQuoted_esc (by decide) (by decide) (by decide)]; rfl
  split
  · rename_i h
    have : c = '\t' := char_of_toNat h
    subst this
    simp only [List.cons_append, List.nil_append]
    rw [readQuoted_esc (by decide) (by decide) (by decide)]; rfl
  split
  · rename_i h
    have : c = Char.ofNat 11 := char_of_toNat h
    subst this
    simp only [List.cons_append, List.nil_append]
    rw [readQuoted_esc (by decide) (by decide) (by decide)]; rfl
  split
  · rename_i h
    obtain ⟨a, b, e⟩ := exists2 (hex_length 2 c.toNat)
    rw [← charThen_hex 2 c (by omega), e]
    rfl
  split
  · rename_i h
    obtain ⟨a, b, a', b', e⟩ := exists4 (hex_length 4 c.toNat)
    rw [← charThen_hex 4 c (by omega), e]
    rfl
  · have hc : c.toNat < 16 ^ 8 := by
      have := c.val.toNat_lt
      simpa using this
    obtain ⟨a, b, a', b', x, y, x', y', e⟩ := exists8 (hex_length 8 c.toNat)
    rw [← charThen_hex 8 c hc, e]
    rfl

/-- Reading a quoted text gives the text. -/
theorem readLiteral_quote (pr : Char → Bool) (s : Text) : readLiteral (quote pr s) = some s := by
  simp only [readLiteral, quote]
  induction s with
  | nil => rfl
  | cons c s ih => rw [List.flatMap_cons, List.append_assoc, readQuoted_escape, ih]; rfl

end Lemmas
end Verif
