import Verif.Spec.IdentSpec
import Verif.Lemmas.Ident

/-!
C78: `id` makes an identifier from a text.
-/

namespace Verif.Props
open Verif Verif.Ident Verif.Lemmas Verif.Spec

theorem valid_iff (lib : Lib) (c : Char) : valid lib c = true ↔ IdentChar lib.letter c := by
  unfold valid IdentChar
  simp only [Bool.or_eq_true, Bool.and_eq_true, decide_eq_true_eq, beq_iff_eq, or_assoc]

theorem ident_one {lib : Lib} (hp : PlainExpand lib) {r : Text} {x : Char} (hr : OneChar r x) (s : Text) :
    ident lib s r = some (squeeze x false (s.map fun c => if valid lib c then c else x)) := by
  have hrep : replacementOf r = [x] := by
    rcases hr with ⟨rfl, rfl⟩ | ⟨rfl, _⟩ <;> rfl
  have hx : x ∉ ['*', '^', '|', '$'] := by
    rcases hr with ⟨_, rfl⟩ | ⟨_, h⟩
    · decide
    · exact h
  have hl : literal [x] = true := by
    simp only [List.mem_cons, List.not_mem_nil, or_false, not_or] at hx
    simp [literal, hx]
  have hd : '$' ∉ [x] := by
    simp only [List.mem_cons, List.not_mem_nil, or_false, not_or] at hx ⊢
    exact fun e => hx.2.2.2 e.symm
  have hrepl : replaceInvalid lib [x] s = s.map fun c => if valid lib c then c else x := by
    unfold replaceInvalid
    induction s with
    | nil => rfl
    | cons c s ih =>
      rw [List.flatMap_cons, List.map_cons, ih, hp [x] c hd]
      split <;> rfl
  simp only [ident, hrep, hl, if_true, hrepl]
  rw [collapse_single _ _ _ (Nat.le_refl _)]

theorem pieces_sep (sep : Char → Prop) [DecidablePred sep] (c : Char) (s : Text) (h : sep c) : pieces sep (c :: s) = pieces sep s := by
  cases s with
  | nil => simp [pieces, h]
  | cons d s => simp [pieces, h]

theorem pieces_map (sep sep' : Char → Prop) [DecidablePred sep] [DecidablePred sep'] (f : Char → Char)
    (h : ∀ c, sep' (f c) ↔ sep c) (hf : ∀ c, ¬ sep c → f c = c) (s : Text) : pieces sep' (s.map f) = pieces sep s := by
  induction s with
  | nil => rfl
  | cons c s ih =>
    cases s with
    | nil =>
      simp only [List.map_cons, List.map_nil, pieces, h]
      split
      · rfl
      · rename_i hc; rw [hf c hc]
    | cons d s =>
      rw [List.map_cons] at ih
      simp only [List.map_cons, pieces, h, ih]
      split
      · rfl
      · rename_i hc
        rw [hf c hc]

theorem pieces_cons (sep : Char → Prop) [DecidablePred sep] (c : Char) (s t : Text) (hh : s.head? = t.head?) (hp : pieces sep s = pieces sep t) :
    pieces sep (c :: s) = pieces sep (c :: t) := by
  cases s with
  | nil =>
    cases t with
    | nil => rfl
    | cons b t => simp at hh
  | cons a s =>
    cases t with
    | nil => simp at hh
    | cons b t =>
      simp only [List.head?_cons, Option.some.injEq] at hh
      subst hh
      simp only [pieces, hp]

theorem squeeze_head (x : Char) (s : Text) : (squeeze x false s).head? = s.head? := by
  cases s with
  | nil => rfl
  | cons c s =>
    simp only [squeeze]
    split
    · rename_i h; simp [h]
    · rfl

theorem squeeze_pieces (x : Char) (s : Text) (p : Bool) : pieces (· = x) (squeeze x p s) = pieces (· = x) s := by
  induction s generalizing p with
  | nil => rfl
  | cons c s ih =>
    simp only [squeeze]
    split
    · rename_i h
      subst h
      rw [pieces_sep (· = c) c s rfl]
      split
      · exact ih _
      · rw [pieces_sep (· = c) c _ rfl]; exact ih _
    · exact pieces_cons _ c _ _ (squeeze_head x s) (ih false)

/-- The last character is kept, except a replacement after a replacement. -/
theorem squeeze_last_gen (x : Char) (s : Text) (p : Bool) :
    (s = [] → squeeze x p s = []) ∧ (s ≠ [] → (p = false ∨ ∃ c ∈ s, c ≠ x) → (squeeze x p s).getLast? = s.getLast?) ∧ ((∀ c ∈ s, c = x) → p = true → squeeze x p s = []) := by
  induction s generalizing p with
  | nil => exact ⟨fun _ => rfl, fun h => absurd rfl h, fun _ _ => rfl⟩
  | cons c s ih =>
    refine ⟨fun h => absurd h (by simp), fun _ h => ?_, fun h hp => ?_⟩
    · by_cases hc : c = x
      · subst hc
        simp only [squeeze, if_true]
        by_cases hall : ∀ d ∈ s, d = c
        · have hnil := (ih true).2.2 hall rfl
          have hp : p = false := by
            rcases h with h | ⟨d, hd, hne⟩
            · exact h
            · rcases List.mem_cons.1 hd with e | e
              · exact absurd e hne
              · exact absurd (hall d e) hne
          rw [hnil, hp]
          simp only [Bool.false_eq_true, if_false]
          have : s = List.replicate s.length c := List.eq_replicate_iff.2 ⟨rfl, hall⟩
          rw [this, ← List.replicate_succ, List.getLast?_replicate]
          simp
        · have hex : ∃ d ∈ s, d ≠ c := by
            apply Classical.byContradiction
            intro hn
            exact hall fun d hd => Classical.byContradiction fun hne => hn ⟨d, hd, hne⟩
          obtain ⟨d, hd, hne⟩ := hex
          have hs : s ≠ [] := List.ne_nil_of_mem hd
          have hl := (ih true).2.1 hs (.inr ⟨d, hd, hne⟩)
          have e : (c :: s).getLast? = s.getLast? := by
            cases s with
            | nil => exact absurd rfl hs
            | cons a s => rw [List.getLast?_cons_cons]
          rw [e, ← hl]
          split
          · rfl
          · cases hq : squeeze c true s with
            | nil =>
              rw [hq] at hl
              have := hl.symm
              rw [List.getLast?_nil, List.getLast?_eq_none_iff] at this
              exact absurd this hs
            | cons a q => rw [List.getLast?_cons_cons]
      · simp only [squeeze, if_neg hc]
        cases s with
        | nil => rfl
        | cons a s =>
          have hl := (ih false).2.1 (by simp) (.inl rfl)
          rw [List.getLast?_cons_cons, ← hl]
          cases hq : squeeze x false (a :: s) with
          | nil =>
            rw [hq] at hl
            have := hl.symm
            rw [List.getLast?_nil, List.getLast?_eq_none_iff] at this
            cases this
          | cons b q => rw [List.getLast?_cons_cons]
    · have hc : c = x := h c List.mem_cons_self
      simp only [squeeze, hc, if_true, hp]
      exact (ih true).2.2 (fun d hd => h d (List.mem_cons_of_mem _ hd)) rfl

theorem squeeze_last (x : Char) (s : Text) : (squeeze x false s).getLast? = s.getLast? := by
  cases s with
  | nil => rfl
  | cons c s => exact (squeeze_last_gen x (c :: s) false).2.1 (by simp) (.inl rfl)

/-- **C78**: the result has letters, digits, underscores and the replacement only; the replacement is nowhere twice in a row; its pieces between the replacements are those of the text between the characters that do not stay; it begins with
the replacement when the text begins with such a character. -/
theorem C78_chars (lib : Lib) (hp : PlainExpand lib) (s r : Text) (x : Char) (hr : OneChar r x) :
    ∃ t, ident lib s r = some t ∧
      (∀ c ∈ t, IdentChar lib.letter c ∨ c = x) ∧
      ¬ [x, x] <:+: t ∧
      pieces (· = x) t = pieces (Separates lib.letter x) s ∧
      (t.head? = some x ↔ ∃ c, s.head? = some c ∧ Separates lib.letter x c) ∧
      (t.getLast? = some x ↔ ∃ c, s.getLast? = some c ∧ Separates lib.letter x c) := by
  have hsep : ∀ c, (if valid lib c then c else x) = x ↔ Separates lib.letter x c := by
    intro c
    unfold Separates
    rw [← valid_iff]
    split
    · rename_i h; simp [h]
    · rename_i h; simp [h]
  refine ⟨_, ident_one hp hr s, ?_, squeeze_no_double x _ _, ?_, ?_, ?_⟩
  · intro c hc
    have := squeeze_mem x _ _ hc
    rw [List.mem_map] at this
    obtain ⟨a, _, rfl⟩ := this
    split
    · rename_i h
      exact .inl ((valid_iff lib a).1 h)
    · exact .inr rfl
  · rw [squeeze_pieces]
    refine pieces_map _ _ _ hsep ?_ s
    intro c hc
    have : ¬ (if valid lib c then c else x) = x := fun e => hc ((hsep c).1 e)
    split
    · rfl
    · rename_i h; simp [h] at this
  · rw [squeeze_head, List.head?_map, Option.map_eq_some_iff]
    constructor
    · rintro ⟨c, h1, h2⟩; exact ⟨c, h1, (hsep c).1 h2⟩
    · rintro ⟨c, h1, h2⟩; exact ⟨c, h1, (hsep c).2 h2⟩
  · rw [squeeze_last, List.getLast?_map, Option.map_eq_some_iff]
    constructor
    · rintro ⟨c, h1, h2⟩; exact ⟨c, h1, (hsep c).1 h2⟩
    · rintro ⟨c, h1, h2⟩; exact ⟨c, h1, (hsep c).2 h2⟩

/-- **C78**: a text of allowed characters, without repetition of the replacement, is unchanged. -/
theorem C78_unchanged (lib : Lib) (hp : PlainExpand lib) (s r : Text) (x : Char) (hr : OneChar r x)
    (hs : ∀ c ∈ s, IdentChar lib.letter c ∨ c = x) (hd : ¬ [x, x] <:+: s) : ident lib s r = some s := by
  rw [ident_one hp hr]
  have : (s.map fun c => if valid lib c then c else x) = s := by
    conv => rhs; rw [← List.map_id s]
    refine List.map_congr_left fun c hc => ?_
    split
    · rfl
    · rename_i h
      rcases hs c hc with h1 | h1
      · exact absurd ((valid_iff lib c).2 h1) h
      · exact h1.symm
  rw [this, (squeeze_same x s hd).1]

/-- **C78**: the function applied to its result changes nothing. -/
theorem C78_idempotent (lib : Lib) (hp : PlainExpand lib) (s r : Text) (x : Char) (hr : OneChar r x) :
    ∃ t, ident lib s r = some t ∧ ident lib t r = some t := by
  obtain ⟨t, h1, h2, h3, _⟩ := C78_chars lib hp s r x hr
  exact ⟨t, h1, C78_unchanged lib hp t r x hr h2 h3⟩

theorem dropPrefix_length {r s t : Text} (h : Text.dropPrefix? r s = some t) : s = r ++ t := Text.dropPrefix?_eq_some.1 h

theorem dropRuns_mem (r : Text) (n : Nat) (s : Text) {c : Char} (h : c ∈ dropRuns r n s) : c ∈ s := by
  induction n generalizing s with
  | zero => exact h
  | succ n ih =>
    rw [dropRuns] at h
    split at h
    · rename_i rest hr
      rw [dropPrefix_length hr]
      exact List.mem_append_right _ (ih _ h)
    · exact h

theorem collapse_mem (r : Text) (n : Nat) (s : Text) {c : Char} (h : c ∈ collapse r n s) : c ∈ s ∨ c ∈ r := by
  induction n generalizing s with
  | zero => exact .inl h
  | succ n ih =>
    cases s with
    | nil => cases h
    | cons a s =>
      rw [collapse] at h
      split at h
      · rename_i rest hr
        rcases List.mem_append.1 h with h | h
        · exact .inr h
        · rcases ih _ h with h | h
          · left
            rw [dropPrefix_length hr]
            exact List.mem_append_right _ (dropRuns_mem _ _ _ h)
          · exact .inr h
      · rcases List.mem_cons.1 h with h | h
        · exact .inl (by rw [h]; exact List.mem_cons_self)
        · rcases ih _ h with h | h
          · exact .inl (List.mem_cons_of_mem _ h)
          · exact .inr h

/-- **C78**: with any replacement that means itself, the result has letters, digits, underscores and characters of the replacement only. -/
theorem C78_chars_any (lib : Lib) (hp : PlainExpand lib) (s r : Text) (hr : literal r = true) (hne : r ≠ []) :
    ∃ t, ident lib s r = some t ∧ ∀ c ∈ t, IdentChar lib.letter c ∨ c ∈ r := by
  have hrep : replacementOf r = r := if_neg hne
  have hd : '$' ∉ r := by
    intro h
    simp only [literal, List.all_eq_true] at hr
    have := hr _ h
    simp at this
  refine ⟨collapse r (replaceInvalid lib r s).length (replaceInvalid lib r s), by simp only [ident, hrep, hr, if_true], ?_⟩
  intro c hc
  rcases collapse_mem _ _ _ hc with h | h
  · unfold replaceInvalid at h
    rw [List.mem_flatMap] at h
    obtain ⟨a, _, ha⟩ := h
    split at ha
    · rename_i hv
      simp only [List.mem_singleton] at ha
      subst ha
      exact .inl ((valid_iff lib c).1 hv)
    · rw [hp r a hd] at ha
      exact .inr ha
  · exact .inr h

/-- A library with the letters of ASCII, to show cases. -/
def asciiLib : Lib := ⟨Char.isAlpha, fun r c => if r = T "$0" then [c] else r, fun _ t => some t⟩

/-- **C78**, not for every text: the result is not always an identifier, it can begin with a digit or be empty. -/
theorem C78_not_identifier : ident asciiLib (T "1 a") [] = some (T "1_a") ∧ ident asciiLib [] [] = some [] := by
  refine ⟨by decide +kernel, by decide +kernel⟩

/-- **C78**, not for every replacement: one of several characters can be repeated in the result. -/
theorem C78_not_single : ∃ s r t, literal r = true ∧ ident asciiLib s r = some t ∧ r ++ r <:+: t := by
  refine ⟨T "ababaababa", T "aba", T "ababaababa", by decide +kernel, by decide +kernel, ⟨T "ab", T "ba", by decide +kernel⟩⟩

/-- **C78**, not for every replacement: with `$0`, which stands for what is replaced, the characters that are not allowed stay. -/
theorem C78_not_dollar (lib : Lib) (h : ∀ c, lib.expand (T "$0") c = [c]) (s : Text) : replaceInvalid lib (T "$0") s = s := by
  unfold replaceInvalid
  induction s with
  | nil => rfl
  | cons c s ih =>
    rw [List.flatMap_cons, ih, h]
    split <;> rfl

example : PlainExpand { asciiLib with expand := fun r c => if '$' ∈ r then [c] else r } := by
  intro r c h
  simp [h]
example : pieces (· = '_') (T "_a_bc__d") = [T "a", T "bc", T "d"] := by decide
example : OneChar [] '_' ∧ OneChar (T "-") '-' := ⟨.inl ⟨rfl, rfl⟩, .inr ⟨rfl, by decide⟩⟩
example : ident asciiLib (T "a b  c__d.") [] = some (T "a_b_c_d_") ∧ ident asciiLib (T "a b//c_d") (T "-") = some (T "a-b-c_d") := by
  refine ⟨by decide +kernel, by decide +kernel⟩

end Verif.Props
