import Verif.Base.Text
/-!
# White space

The functions of Go's `unicode` and `strings` packages that depend on white space. They model library functions.
-/

namespace Verif.Text
open Verif

/-- `unicode.IsSpace`: the characters with the White_Space property. -/
def isSpace (c : Char) : Bool :=
  let n := c.toNat
  (9 ≤ n && n ≤ 13) || n == 0x20 || n == 0x85 || n == 0xA0 || n == 0x1680 || (0x2000 ≤ n && n ≤ 0x200a) ||
    n == 0x2028 || n == 0x2029 || n == 0x202f || n == 0x205f || n == 0x3000

/-- The length in bytes of the UTF-8 form: Go's `len`. -/
def byteLen : Text → Nat
  | [] => 0
  | c :: cs => c.utf8Size + byteLen cs

theorem byteLen_append (a b : Text) : byteLen (a ++ b) = byteLen a + byteLen b := by
  induction a with
  | nil => simp [byteLen]
  | cons c a ih => simp only [List.cons_append, byteLen, ih]; omega

/-- `strings.TrimLeftFunc(s, unicode.IsSpace)`. -/
def trimLeftSpace (s : Text) : Text := s.dropWhile isSpace

/-- `strings.TrimRightFunc(s, unicode.IsSpace)`. -/
def trimRightSpace (s : Text) : Text := (s.reverse.dropWhile isSpace).reverse

/-- `strings.TrimSpace`. -/
def trimSpace (s : Text) : Text := trimRightSpace (trimLeftSpace s)

/-- The text cut at every character satisfying `p`. -/
def splitP (p : Char → Bool) : Text → List Text
  | [] => [[]]
  | c :: cs =>
    if p c then [] :: splitP p cs
    else match splitP p cs with
      | [] => [[c]]
      | l :: ls => (c :: l) :: ls

/-- `strings.Fields`: the maximal runs of characters that are not white space. -/
def fields (s : Text) : List Text := (splitP isSpace s).filter (fun w => w ≠ [])

theorem splitP_ne_nil (p : Char → Bool) (s : Text) : splitP p s ≠ [] := by
  cases s with
  | nil => simp [splitP]
  | cons c cs =>
    simp only [splitP]
    split
    · simp
    · split <;> simp

theorem splitP_append (p : Char → Bool) (a b : Text) (c : Char) (hc : p c = true) :
    splitP p (a ++ c :: b) = splitP p a ++ splitP p b := by
  induction a with
  | nil => simp [splitP, hc]
  | cons x a ih =>
    simp only [List.cons_append, splitP, ih]
    split
    · rfl
    · cases h : splitP p a with
      | nil => exact absurd h (splitP_ne_nil p a)
      | cons l ls => simp

theorem splitP_none (p : Char → Bool) (a : Text) (h : ∀ c ∈ a, p c = false) : splitP p a = [a] := by
  induction a with
  | nil => rfl
  | cons x a ih =>
    simp only [splitP, h x (by simp)]
    rw [ih (fun c hc => h c (List.mem_cons_of_mem _ hc))]
    simp

theorem splitP_mem (p : Char → Bool) (s : Text) : ∀ l ∈ splitP p s, ∀ c ∈ l, p c = false := by
  induction s with
  | nil => intro l hl c hc; simp [splitP] at hl; subst hl; simp at hc
  | cons x s ih =>
    intro l hl c hc
    simp only [splitP] at hl
    split at hl
    · rcases List.mem_cons.1 hl with rfl | hl
      · simp at hc
      · exact ih l hl c hc
    · rename_i hx
      cases h : splitP p s with
      | nil => exact absurd h (splitP_ne_nil p s)
      | cons l' ls =>
        rw [h] at hl
        simp only [List.mem_cons] at hl
        rcases hl with rfl | hl
        · rcases List.mem_cons.1 hc with rfl | hc
          · simpa using hx
          · exact ih l' (by rw [h]; simp) c hc
        · exact ih l (by rw [h]; simp [hl]) c hc

/-- A word: not empty, without white space. -/
def IsWord (w : Text) : Prop := w ≠ [] ∧ ∀ c ∈ w, isSpace c = false

theorem fields_words (s : Text) : ∀ w ∈ fields s, IsWord w := by
  intro w hw
  unfold fields at hw
  rw [List.mem_filter] at hw
  exact ⟨by simpa using hw.2, splitP_mem isSpace s w hw.1⟩

theorem fields_append (a b : Text) (c : Char) (hc : isSpace c = true) : fields (a ++ c :: b) = fields a ++ fields b := by
  unfold fields
  rw [splitP_append isSpace a b c hc, List.filter_append]

theorem fields_word {w : Text} (h : IsWord w) : fields w = [w] := by
  unfold fields
  rw [splitP_none isSpace w h.2]
  simp [h.1]

theorem fields_space_cons (c : Char) (a : Text) (hc : isSpace c = true) : fields (c :: a) = fields a := by
  have := fields_append [] a c hc
  simpa [fields, splitP] using this

theorem fields_blank_append (a b : Text) (h : ∀ c ∈ a, isSpace c = true) : fields (a ++ b) = fields b := by
  induction a with
  | nil => rfl
  | cons x a ih =>
    rw [List.cons_append, fields_space_cons x _ (h x (by simp))]
    exact ih (fun c hc => h c (List.mem_cons_of_mem _ hc))

theorem fields_nil : fields [] = [] := by simp [fields, splitP]

theorem fields_blank (a : Text) (h : ∀ c ∈ a, isSpace c = true) : fields a = [] := by
  have := fields_blank_append a [] h
  rw [List.append_nil] at this
  rw [this]; exact fields_nil

/-- Words joined by one white space character. -/
theorem fields_join (c : Char) (hc : isSpace c = true) (ws : List Text) : fields (join [c] ws) = (ws.map fields).flatten := by
  induction ws with
  | nil => simp [join, fields_nil]
  | cons w ws ih =>
    by_cases h : ws = []
    · subst h; simp [join]
    · rw [join_cons_of_ne _ _ h, List.append_assoc]
      change fields (w ++ c :: join [c] ws) = _
      rw [fields_append _ _ _ hc, ih]; simp

theorem fields_join_words (c : Char) (hc : isSpace c = true) (ws : List Text) (h : ∀ w ∈ ws, IsWord w) :
    fields (join [c] ws) = ws := by
  rw [fields_join c hc]
  induction ws with
  | nil => rfl
  | cons w ws ih =>
    rw [List.map_cons, List.flatten_cons, fields_word (h w (by simp)), ih (fun x hx => h x (List.mem_cons_of_mem _ hx))]
    rfl

theorem fields_append_blank (a b : Text) (h : ∀ c ∈ b, isSpace c = true) : fields (a ++ b) = fields a := by
  cases b with
  | nil => simp
  | cons c b =>
    rw [fields_append a b c (h c (by simp)), fields_blank b (fun x hx => h x (List.mem_cons_of_mem _ hx))]
    simp

theorem fields_trimRight (s : Text) : fields (trimRightSpace s) = fields s := by
  have h : s = trimRightSpace s ++ (s.reverse.takeWhile isSpace).reverse := by
    unfold trimRightSpace
    rw [← List.reverse_append, List.takeWhile_append_dropWhile, List.reverse_reverse]
  have h2 := fields_append_blank (trimRightSpace s) (s.reverse.takeWhile isSpace).reverse (by
    intro c hc
    exact List.all_eq_true.1 (List.all_takeWhile (p := isSpace) (l := s.reverse)) c (by simpa using hc))
  rw [← h] at h2
  exact h2.symm

theorem fields_eq_nil {s : Text} : fields s = [] ↔ ∀ c ∈ s, isSpace c = true := by
  constructor
  · intro h
    induction s with
    | nil => intro c hc; simp at hc
    | cons x s ih =>
      cases hx : isSpace x with
      | true =>
        rw [fields_space_cons x s hx] at h
        intro c hc
        rcases List.mem_cons.1 hc with rfl | hc
        · exact hx
        · exact ih h c hc
      | false =>
        exfalso
        unfold fields at h
        simp only [splitP, hx] at h
        cases h2 : splitP isSpace s with
        | nil => exact absurd h2 (splitP_ne_nil _ s)
        | cons l ls => simp [h2] at h
  · intro h; exact fields_blank s h

theorem dropWhile_all {p : Char → Bool} {s : Text} (h : ∀ c ∈ s, p c = true) : s.dropWhile p = [] := by
  induction s with
  | nil => rfl
  | cons x s ih => rw [List.dropWhile_cons, if_pos (h x (by simp))]; exact ih (fun c hc => h c (List.mem_cons_of_mem _ hc))

theorem trimSpace_eq_nil {s : Text} : trimSpace s = [] ↔ ∀ c ∈ s, isSpace c = true := by
  rw [← fields_eq_nil]
  have hl : fields (trimLeftSpace s) = fields s := by
    unfold trimLeftSpace
    conv => rhs; rw [← List.takeWhile_append_dropWhile (p := isSpace) (l := s)]
    rw [fields_blank_append]
    intro c hc
    exact List.all_eq_true.1 (List.all_takeWhile (p := isSpace) (l := s)) c hc
  have hr := fields_trimRight (trimLeftSpace s)
  rw [hl] at hr
  constructor
  · intro h
    unfold trimSpace at h
    rw [h] at hr
    rw [← hr]; exact fields_nil
  · intro h
    unfold trimSpace
    have hs := fields_eq_nil.1 h
    have : trimLeftSpace s = [] := by
      exact dropWhile_all hs
    rw [this]; rfl

end Verif.Text
