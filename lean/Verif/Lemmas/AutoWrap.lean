import Verif.Spec.WrapSpec
import Verif.Lemmas.Protect
import Verif.Lemmas.Strings
import Verif.Lemmas.Quote

/-!
Lemmas for C85: protecting the literals of the arguments of a call.
-/

namespace Verif.Lemmas
open Verif Verif.Text Verif.Value Verif.AutoWrap Verif.Spec Verif.Protect Verif.Strings

/-- The protection of a text, with marks numbered from `n`. -/
def protectN (n : Nat) (s : Text) : Text × List Text := protectLoop s.length n s

theorem protectN_cut (n : Nat) (s : Text) : ∃ pieces tail, Cut s pieces tail ∧ protectN n s = (marked token n pieces tail, pieces.map Prod.snd) :=
  protectLoop_cut s.length n s (Nat.le_refl _)

theorem protectN_of_cut {s : Text} {pieces : List (Text × Text)} {tail : Text} (h : Cut s pieces tail) (n : Nat) :
    protectN n s = (marked token n pieces tail, pieces.map Prod.snd) := by
  obtain ⟨p, t, hc, he⟩ := protectN_cut n s
  obtain ⟨rfl, rfl⟩ := cut_unique h hc
  exact he

theorem literalCut_cons {c : Char} (hc : ¬ Quote c) {s : Text} {pieces : List (Text × Text)} {tail : Text} (h : Cut s pieces tail) :
    (pieces = [] ∧ s = tail ∧ Cut (c :: s) [] (c :: s)) ∨ ∃ pre lit rest, pieces = (pre, lit) :: rest ∧ Cut (c :: s) ((c :: pre, lit) :: rest) tail := by
  cases h with
  | tail h =>
    refine Or.inl ⟨rfl, rfl, .tail ?_⟩
    intro pre q rest lit after he hp hq hl
    cases pre with
    | nil =>
      simp only [List.nil_append, List.cons.injEq] at he
      exact absurd (he.1 ▸ hq) hc
    | cons d pre =>
      simp only [List.cons_append, List.cons.injEq] at he
      exact h pre q rest lit after he.2 (fun x hx => hp x (List.mem_cons_of_mem _ hx)) hq hl
  | @literal pre lit rest pieces _ hp hl h =>
    refine Or.inr ⟨_, _, _, rfl, ?_⟩
    have := Cut.literal (pre := c :: pre) (by
      intro x hx
      rcases List.mem_cons.1 hx with rfl | hx
      · exact hc
      · exact hp x hx) hl h
    simpa using this

/-- A character that is not a quote is kept. -/
theorem protectN_cons {c : Char} (hc : ¬ Quote c) (n : Nat) (s : Text) : protectN n (c :: s) = (c :: (protectN n s).1, (protectN n s).2) := by
  obtain ⟨p, t, h, he⟩ := protectN_cut n s
  rw [he]
  rcases literalCut_cons hc h with ⟨rfl, rfl, h1⟩ | ⟨pre, lit, rest, rfl, h1⟩
  · rw [protectN_of_cut h1]; rfl
  · rw [protectN_of_cut h1]; rfl

/-- A literal is replaced by a mark. -/
theorem protectN_literal {l : Text} (hl : Literal l) (n : Nat) (s : Text) : protectN n (l ++ s) = (token n ++ (protectN (n + 1) s).1, l :: (protectN (n + 1) s).2) := by
  obtain ⟨p, t, h, he⟩ := protectN_cut (n + 1) s
  have h1 := Cut.literal (pre := []) (by intro x hx; cases hx) hl h
  rw [he]
  rw [List.nil_append] at h1
  rw [protectN_of_cut h1]
  rfl

/-- The characters of a mark do not open or close anything. -/
theorem token_mem {n : Nat} {c : Char} (h : c ∈ token n) : c ≠ '(' ∧ c ≠ ')' := by
  unfold token at h
  simp only [List.mem_cons, List.mem_append, List.not_mem_nil, or_false] at h
  rcases h with rfl | rfl | h | rfl
  · decide
  · decide
  · have := Nat.isDigit_of_mem_toDigits (by decide) (by decide) h
    constructor <;> (rintro rfl; revert this; decide)
  · decide

theorem matchClose_other {c : Char} (h1 : c ≠ '(') (h2 : c ≠ ')') (d i : Nat) (t : Text) :
    matchClose '(' ')' d i (c :: t) = matchClose '(' ')' d (i + 1) t := by
  simp [matchClose, h1, h2]

theorem matchClose_open (d i : Nat) (t : Text) : matchClose '(' ')' d i ('(' :: t) = matchClose '(' ')' (d + 1) (i + 1) t := by
  simp [matchClose]

theorem matchClose_shut (d i : Nat) (t : Text) : matchClose '(' ')' (d + 1) i (')' :: t) = matchClose '(' ')' d (i + 1) t := by
  simp [matchClose]

/-- The protected arguments of a call: a text whose parentheses are closed and in which the literals can be put back. -/
theorem protect_arguments {a : Text} (h : Arguments a) : ∀ n, ∃ (a' : Text) (lits : List Text),
    (∀ u, protectN n (a ++ u) = (a' ++ (protectN (n + lits.length) u).1, lits ++ (protectN (n + lits.length) u).2)) ∧
    (∀ d i t, matchClose '(' ')' d i (a' ++ t) = matchClose '(' ')' d (i + a'.length) t) ∧
    (∀ (arr : List Text) (t : Text), (∀ (i : Nat) (l : Text), lits[i]? = some l → arr[n + i]? = some l) → restoreAux arr 0 (a' ++ t) = (restoreAux arr 0 t).map (a ++ ·)) := by
  induction h with
  | nil => intro n; exact ⟨[], [], fun u => rfl, fun d i t => rfl, fun arr t _ => by simp⟩
  | @plain c t hq h1 h2 _ ih =>
    intro n
    obtain ⟨a', lits, e1, e2, e3⟩ := ih n
    refine ⟨c :: a', lits, fun u => ?_, fun d i u => ?_, fun arr u ha => ?_⟩
    · rw [List.cons_append, protectN_cons hq, e1]; rfl
    · rw [List.cons_append, matchClose_other h1 h2, e2, List.length_cons]
      congr 1; omega
    · have := restoreAux_plain arr [c] (a' ++ u) (by intro x hx; rw [List.mem_singleton] at hx; rw [hx]; exact hq)
      rw [List.singleton_append] at this
      rw [List.cons_append, this, e3 arr u ha]
      cases restoreAux arr 0 u <;> simp
  | @literal l t hl _ ih =>
    intro n
    obtain ⟨a', lits, e1, e2, e3⟩ := ih (n + 1)
    refine ⟨token n ++ a', l :: lits, fun u => ?_, fun d i u => ?_, fun arr u ha => ?_⟩
    · have hn : n + (l :: lits).length = n + 1 + lits.length := by rw [List.length_cons]; omega
      rw [List.append_assoc, protectN_literal hl, e1, hn]; simp
    · rw [List.append_assoc, matchClose_plain _ _ _ _ _ _ (fun hm => (token_mem hm).1 rfl) (fun hm => (token_mem hm).2 rfl), e2, List.length_append]
      congr 1; omega
    · rw [List.append_assoc, restoreAux_token arr n l _ (ha 0 l rfl), e3 arr u (fun i x hx => by
        have := ha (i + 1) x (by simpa using hx)
        rw [← this]; congr 1; omega)]
      cases restoreAux arr 0 u <;> simp
  | @nested a t _ _ iha iht =>
    intro n
    obtain ⟨a', la, e1, e2, e3⟩ := iha n
    obtain ⟨t', lt, f1, f2, f3⟩ := iht (n + la.length)
    have q1 : ¬ Quote '(' := by rintro (h | h) <;> cases h
    have q2 : ¬ Quote ')' := by rintro (h | h) <;> cases h
    have pl : ∀ c, ¬ Quote c → ∀ (arr : List Text) u, restoreAux arr 0 (c :: u) = (restoreAux arr 0 u).map (c :: ·) := by
      intro c hc arr u
      exact restoreAux_plain arr [c] u (by intro x hx; rw [List.mem_singleton] at hx; rw [hx]; exact hc)
    refine ⟨'(' :: (a' ++ ')' :: t'), la ++ lt, fun u => ?_, fun d i u => ?_, fun arr u ha => ?_⟩
    · have hn : n + (la ++ lt).length = n + la.length + lt.length := by rw [List.length_append]; omega
      rw [hn]
      simp only [List.cons_append, List.append_assoc]
      rw [protectN_cons q1, e1, protectN_cons q2, f1]
    · simp only [List.cons_append, List.append_assoc]
      rw [matchClose_open, e2, matchClose_shut, f2, List.length_cons, List.length_append, List.length_cons]
      congr 1; omega
    · simp only [List.cons_append, List.append_assoc]
      rw [pl _ q1, e3 arr _ (fun i l hl => ha i l (by rw [List.getElem?_append_left]; exact hl; exact (List.getElem?_eq_some_iff.1 hl).1)), pl _ q2,
        f3 arr u (fun i l hl => by
          have := ha (la.length + i) l (by rw [List.getElem?_append_right (by omega)]; rw [← hl]; congr 1; omega)
          rw [← this]; congr 1; omega)]
      cases restoreAux arr 0 u <;> simp

theorem noToken_of {t : Text} (h : '♠' ∉ t) : NoToken t := by
  intro a b hab
  cases hm : matchToken b with
  | none => rfl
  | some r =>
    obtain ⟨ds, rest, rfl, _⟩ := matchToken_some (i := r.1) (len := r.2) hm
    exact absurd (by rw [hab]; simp) h

/-- What follows the arguments is put back too. -/
theorem restore_after (arr : List Text) (n : Nat) (s : Text) (h : '♠' ∉ s) (ha : ∀ (i : Nat) (l : Text), (protectN n s).2[i]? = some l → arr[n + i]? = some l) :
    restoreAux arr 0 (protectN n s).1 = some s := by
  obtain ⟨p, t, hc, he⟩ := protectN_cut n s
  obtain ⟨h1, h2, _⟩ := cut_text hc
  rw [he] at ha ⊢
  simp only at ha ⊢
  rw [restore_marked arr p n t (fun x hx => (h2 x hx).1) ?_ (noToken_of ?_), ← h1]
  · intro i x hx
    exact ha i x.2 (by rw [List.getElem?_map, hx]; rfl)
  · intro hm
    exact h (by rw [h1]; exact List.mem_append_right _ hm)

theorem escape_eq (pr : Char → Bool) (s : Text) : AutoWrap.escape pr s = s.flatMap (Quote.escape pr) := by
  simp [AutoWrap.escape, Quote.quote]

theorem readQuoted_flatMap (pr : Char → Bool) (s t : Text) : readQuoted (s.flatMap (Quote.escape pr) ++ t) = (readQuoted t).map (s ++ ·) := by
  induction s with
  | nil => simp
  | cons c s ih =>
    rw [List.flatMap_cons, List.append_assoc, readQuoted_escape, ih]
    cases readQuoted t <;> simp

end Verif.Lemmas

namespace Verif.Lemmas
open Verif Verif.Text Verif.Value Verif.AutoWrap Verif.Spec Verif.Protect Verif.Strings

theorem takeWhile_digit (r y : Text) : (r ++ ')' :: y).takeWhile Char.isDigit = r.takeWhile Char.isDigit := by
  induction r with
  | nil => rfl
  | cons c r ih => simp only [List.cons_append, List.takeWhile_cons, ih]

/-- A mark does not go over a parenthesis. -/
theorem matchToken_split (x y : Text) : matchToken (x ++ ')' :: y) = matchToken x := by
  match x with
  | [] => rfl
  | [c] =>
    by_cases hc : c = '"'
    · subst hc; rfl
    · rw [List.singleton_append, matchToken_of_ne hc, matchToken_of_ne hc]
  | c :: d :: r =>
    by_cases hc : c = '"'
    · subst hc
      by_cases hd : d = '♠'
      · subst hd
        simp only [List.cons_append, matchToken, takeWhile_digit]
        split
        · rfl
        · have hle : (r.takeWhile Char.isDigit).length ≤ r.length := (List.takeWhile_sublist _).length_le
          rw [List.drop_append_of_le_length hle]
          cases r.drop (r.takeWhile Char.isDigit).length with
          | nil => rfl
          | cons e l =>
            by_cases he : e = '"'
            · subst he; rfl
            · simp only [List.cons_append]
              split <;> split <;> simp_all
      · have h : ∀ l, matchToken ('"' :: d :: l) = none := by
          intro l
          unfold matchToken
          split
          · rename_i heq; simp only [List.cons.injEq] at heq; exact absurd heq.2.1 hd
          · rfl
        rw [h]; exact h _
    · rw [List.cons_append, matchToken_of_ne hc, matchToken_of_ne hc]

theorem matchToken_length {t : Text} {i len : Nat} (h : matchToken t = some (i, len)) : 0 < len ∧ len ≤ t.length := by
  unfold matchToken at h
  split at h
  · rename_i rest
    simp only at h
    split at h
    · cases h
    · split at h
      · rename_i l heq
        simp only [Option.some.injEq, Prod.mk.injEq] at h
        have := congrArg List.length heq
        simp only [List.length_drop, List.length_cons] at this
        have e := h.2
        constructor
        · omega
        · simp only [List.length_cons]; omega
      · cases h
  · cases h

/-- What is before a parenthesis and what begins with it are restored apart. -/
theorem restoreAux_split (arr : List Text) (y : Text) : ∀ (x : Text) (k : Nat), k ≤ x.length →
    restoreAux arr k (x ++ ')' :: y) = (restoreAux arr k x).bind fun a => (restoreAux arr 0 (')' :: y)).map (a ++ ·) := by
  intro x
  induction x with
  | nil =>
    intro k hk
    obtain rfl : k = 0 := by simpa using hk
    simp [restoreAux]
  | cons c x ih =>
    intro k hk
    generalize restoreAux arr 0 (')' :: y) = z at ih ⊢
    cases k with
    | succ k =>
      simp only [List.cons_append, restoreAux]
      exact ih k (by simpa using hk)
    | zero =>
      have hm := matchToken_split (c :: x) y
      rw [List.cons_append] at hm
      simp only [List.cons_append, restoreAux, hm]
      cases hx : matchToken (c :: x) with
      | none =>
        simp only
        rw [ih 0 (Nat.zero_le _)]
        cases restoreAux arr 0 x <;> simp
        cases z <;> simp
      | some r =>
        obtain ⟨i, len⟩ := r
        have hl := matchToken_length hx
        simp only
        cases arr[i]? with
        | none => rfl
        | some lit =>
          simp only
          rw [ih (len - 1) (by have := hl.2; simp only [List.length_cons] at this; omega)]
          cases restoreAux arr (len - 1) x <;> simp
          cases z <;> simp

theorem matchClose_cut {t : Text} : ∀ {d i r : Nat}, matchClose '(' ')' d i t = some r → ∃ u v, t = u ++ ')' :: v ∧ r = i + u.length := by
  induction t with
  | nil => intro d i r h; cases h
  | cons c t ih =>
    intro d i r h
    have key : ∀ d, matchClose '(' ')' d (i + 1) t = some r → ∃ u v, c :: t = u ++ ')' :: v ∧ r = i + u.length := by
      intro d h
      obtain ⟨u, v, rfl, rfl⟩ := ih h
      exact ⟨c :: u, v, rfl, by simp only [List.length_cons]; omega⟩
    by_cases h2 : c = ')'
    · subst h2
      cases d with
      | zero =>
        have : matchClose '(' ')' 0 i (')' :: t) = some i := by simp [matchClose]
        rw [this] at h
        cases h
        exact ⟨[], t, rfl, rfl⟩
      | succ d => rw [matchClose_shut] at h; exact key _ h
    · by_cases h1 : c = '('
      · subst h1; rw [matchClose_open] at h; exact key _ h
      · rw [matchClose_other h1 h2] at h; exact key _ h

theorem matchClose_none {t : Text} (h : ')' ∉ t) (d i : Nat) : matchClose '(' ')' d i t = none := by
  cases hm : matchClose '(' ')' d i t with
  | none => rfl
  | some r =>
    obtain ⟨u, v, rfl, _⟩ := matchClose_cut hm
    exact absurd (by simp) h

/-- The context of a text that begins with a parenthesis. -/
theorem context_first (t : Text) : context ('(' :: t) 1 ['('] [')'] = match matchClose '(' ')' 0 0 t with
      | none => some ([], -1)
      | some r => some ('(' :: t.take (r + 1), 0) := by
  cases t with
  | nil => rfl
  | cons c y =>
    have := context_match '(' ')' (by decide) [] [] y c (by simp) (by simp)
    simp only [List.nil_append, List.length_nil] at this
    cases hm : matchClose '(' ')' 0 0 (c :: y) with
    | none => rw [hm] at this; exact this
    | some r => rw [hm] at this; exact this

end Verif.Lemmas
