import Verif.Lemmas.DictOps
import Verif.Lemmas.Quote
import Verif.Model.Bash
import Verif.Spec.BashSpec
/-!
# Lemmas on the rendering of bash variables
-/

namespace Verif
namespace Lemmas
open Spec Text

/-- What ends a word: nothing or a blank. -/
def Ends (rest : Text) : Prop := rest = [] ∨ ∃ c t, rest = c :: t ∧ BashBlank c

theorem bashWord_end {rest : Text} (h : Ends rest) : bashWord false rest = some ([], rest) := by
  rcases h with rfl | ⟨c, t, rfl, hc⟩
  · rfl
  · rcases hc with rfl | rfl | rfl <;> rfl

theorem bashWord_plain {c : Char} (h : BashPlain c) (t : Text) : bashWord false (c :: t) = addChar c (bashWord false t) := by
  have h1 : ¬ BashBlank c := by
    rintro (rfl | rfl | rfl) <;> exact absurd h (by decide)
  have h2 : c ≠ '"' := by rintro rfl; exact absurd h (by decide)
  have h3 : c ≠ '\\' := by rintro rfl; exact absurd h (by decide)
  rw [bashWord.eq_def]
  split
  · rename_i h; cases h
  · rename_i h _; cases h
  · rename_i h _; cases h
  · rename_i _ h; cases h
  · rename_i _ h; simp only [List.cons.injEq] at h; exact absurd h.1 h3
  · rename_i _ h
    simp only [List.cons.injEq] at h
    obtain ⟨rfl, rfl⟩ := h
    rw [if_neg h1, if_neg h2, if_pos h]

theorem bashWord_escaped (c : Char) (t : Text) : bashWord false ('\\' :: c :: t) = addChar c (bashWord false t) := rfl

theorem bashWord_inside {c : Char} (h1 : c ≠ '"') (h2 : c ≠ '\\') (h3 : c ≠ '$') (h4 : c ≠ '`') (t : Text) :
    bashWord true (c :: t) = addChar c (bashWord true t) := by
  rw [bashWord.eq_def]
  split
  · rename_i _ h; cases h
  · rename_i _ h; simp only [List.cons.injEq] at h; exact absurd h.1 h2
  · rename_i _ h
    simp only [List.cons.injEq] at h
    obtain ⟨rfl, rfl⟩ := h
    simp [h1, h2, h3, h4]
  · rename_i h _; cases h
  · rename_i h _; cases h
  · rename_i h _; cases h

theorem bashWord_close (t : Text) : bashWord true ('"' :: t) = bashWord false t := by
  cases t <;> rfl

theorem bashWord_open (t : Text) : bashWord false ('"' :: t) = bashWord true t := by
  cases t <;> rfl

/-- A quoted character with, as the case may be, `$` escaped. -/
def escapeDollar (pr : Char → Bool) (c : Char) : Text := if c = '$' then ['\\', '$'] else Quote.escape pr c

theorem escape_ascii {pr : Char → Bool} {c : Char} (h : 32 ≤ c.toNat ∧ c.toNat < 127) (h1 : c ≠ '"') (h2 : c ≠ '\\') : Quote.escape pr c = [c] := by
  have : Quote.isPrint pr c = true := by
    simp only [Quote.isPrint]
    rw [if_pos (by omega)]
    simp [h]
  simp [Quote.escape, h1, h2, this]

theorem bashWord_escape {pr : Char → Bool} {c : Char} (h : 32 ≤ c.toNat ∧ c.toNat < 127) (h3 : c ≠ '$') (h4 : c ≠ '`') (t : Text) :
    bashWord true (Quote.escape pr c ++ t) = addChar c (bashWord true t) := by
  by_cases h1 : c = '"'
  · subst h1; rfl
  · by_cases h2 : c = '\\'
    · subst h2; rfl
    · rw [escape_ascii h h1 h2]
      exact bashWord_inside h1 h2 h3 h4 t

theorem bashWord_escapeDollar {pr : Char → Bool} {c : Char} (h : 32 ≤ c.toNat ∧ c.toNat < 127) (h4 : c ≠ '`') (t : Text) :
    bashWord true (escapeDollar pr c ++ t) = addChar c (bashWord true t) := by
  unfold escapeDollar
  split
  · rename_i h; subst h; rfl
  · rename_i h3; exact bashWord_escape h h3 h4 t

theorem bashWord_quoted {f : Char → Text} {s rest : Text} (hf : ∀ c ∈ s, ∀ t, bashWord true (f c ++ t) = addChar c (bashWord true t)) (hr : Ends rest) :
    bashWord false ('"' :: (s.flatMap f ++ ['"']) ++ rest) = some (s, rest) := by
  rw [List.cons_append, bashWord_open]
  induction s with
  | nil =>
    simp only [List.flatMap_nil, List.nil_append, List.singleton_append]
    rw [bashWord_close, bashWord_end hr]
  | cons c s ih =>
    rw [List.flatMap_cons, List.append_assoc, List.append_assoc, hf c (by simp)]
    rw [← List.append_assoc, ih (fun c hc => hf c (List.mem_cons_of_mem _ hc))]
    rfl

theorem bashWord_words {s rest : Text} (h : ∀ c ∈ s, BashPlain c) (hr : Ends rest) : bashWord false (s ++ rest) = some (s, rest) := by
  induction s with
  | nil => exact bashWord_end hr
  | cons c s ih =>
    rw [List.cons_append, bashWord_plain (h c (by simp)), ih (fun c hc => h c (List.mem_cons_of_mem _ hc))]
    rfl

theorem any_mem {s : Text} {set : List Char} : s.any (fun c => c ∈ set) = true ↔ ∃ c ∈ s, c ∈ set := by simp

theorem plain_not_in {c : Char} (h : BashPlain c) : c ∉ T " []()" := by
  intro hc
  have : c = ' ' ∨ c = '[' ∨ c = ']' ∨ c = '(' ∨ c = ')' := by simpa [T] using hc
  rcases this with rfl | rfl | rfl | rfl | rfl <;> exact absurd h (by decide)

theorem plain_ne {c : Char} (h : BashPlain c) : c ≠ '$' ∧ c ≠ '`' ∧ c ≠ '"' ∧ c ≠ '\\' ∧ c ≠ '\t' ∧ c ≠ '\n' := by
  refine ⟨?_, ?_, ?_, ?_, ?_, ?_⟩ <;> (rintro rfl; exact absurd h (by decide))

/-- An element of a list is read back. -/
theorem bashWord_element (lib : Bash.Lib) {s rest : Text} (h : SafeElement s) (hr : Ends rest) : bashWord false (Bash.quote lib s ++ rest) = some (s, rest) := by
  obtain ⟨_, hs, hq⟩ := h
  unfold Bash.quote
  split
  · exact bashWord_quoted (fun c hc t => bashWord_escape ⟨(hs c hc).1, (hs c hc).2.1⟩ (hs c hc).2.2.1 (hs c hc).2.2.2 t) hr
  · rename_i hn
    rcases hq with ⟨c, hc, hm⟩ | hq
    · exfalso
      refine hn (any_mem.2 ⟨c, hc, ?_⟩)
      have : c = ' ' ∨ c = ',' ∨ c = '[' ∨ c = ']' ∨ c = '(' ∨ c = ')' := by simpa [T] using hm
      rcases this with rfl | rfl | rfl | rfl | rfl | rfl <;> decide
    · exact bashWord_words hq hr

theorem quote_head (lib : Bash.Lib) {s : Text} (h : SafeElement s) : ∃ c t', Bash.quote lib s = c :: t' ∧ ¬ BashBlank c := by
  obtain ⟨hne, hs, hq⟩ := h
  unfold Bash.quote
  split
  · exact ⟨'"', _, rfl, by decide⟩
  · rename_i hn
    rcases hq with ⟨c, hc, hm⟩ | hq
    · exfalso
      refine hn (any_mem.2 ⟨c, hc, ?_⟩)
      have : c = ' ' ∨ c = ',' ∨ c = '[' ∨ c = ']' ∨ c = '(' ∨ c = ')' := by simpa [T] using hm
      rcases this with rfl | rfl | rfl | rfl | rfl | rfl <;> decide
    · cases s with
      | nil => exact absurd rfl hne
      | cons c t =>
        refine ⟨c, t, rfl, ?_⟩
        have := hq c (by simp)
        rintro (rfl | rfl | rfl) <;> exact absurd this (by decide)

/-- The elements of a list are read back. -/
theorem bashWords_list (lib : Bash.Lib) (ss : List Text) (h : ∀ s ∈ ss, SafeElement s) : BashWords (join [' '] (ss.map (Bash.quote lib))) ss := by
  induction ss with
  | nil => exact .nil
  | cons s l ih =>
    have hs := h s (by simp)
    obtain ⟨c, t', hh, hb⟩ := quote_head lib hs
    by_cases hl : l = []
    · subst hl
      simp only [List.map_cons, List.map_nil, join]
      refine .word _ _ [] _ ⟨c, t', hh, hb⟩ ?_ .nil
      have := bashWord_element lib hs (.inl rfl : Ends [])
      simpa using this
    · rw [List.map_cons, join_cons_of_ne _ _ (by simpa using hl)]
      refine .word _ s (' ' :: join [' '] (l.map (Bash.quote lib))) _ ⟨c, t' ++ ([' '] ++ join [' '] (l.map (Bash.quote lib))), ?_, hb⟩ ?_ ?_
      · rw [hh]; simp
      · simpa using bashWord_element lib hs (.inr ⟨' ', _, rfl, .inl rfl⟩ : Ends (' ' :: join [' '] (l.map (Bash.quote lib))))
      · exact .blank _ _ _ (.inl rfl) (ih (fun s hs => h s (List.mem_cons_of_mem _ hs)))

theorem replaceAll_char (d : Char) (new s : Text) : replaceAll [d] new s = s.flatMap (fun c => if c = d then new else [c]) := by
  induction s with
  | nil => simp [replaceAll_nil]
  | cons c s ih =>
    by_cases h : c = d
    · subst h
      have := replaceAll_match new s (old := [c]) (by simp)
      rw [List.singleton_append] at this
      rw [this, ih, List.flatMap_cons, if_pos rfl]
    · have hp : hasPrefix [d] (c :: s) = false := by
        rw [Bool.eq_false_iff, ne_eq, hasPrefix_iff]
        rintro ⟨t, ht⟩
        simp only [List.singleton_append, List.cons.injEq] at ht
        exact h ht.1.symm
      rw [replaceAll_skip hp, ih, List.flatMap_cons, if_neg h]
      rfl

/-- The value of an entry of an associative array is read back. -/
theorem bashWord_value (lib : Bash.Lib) {s rest : Text} (h : SafeValue s) (hr : Ends rest) (level : Nat) :
    bashWord false (replaceAll (T "$") (T "\\$") (Bash.toBash lib level (.str false s)) ++ rest) = some (s, rest) := by
  obtain ⟨hs, hq⟩ := h
  change bashWord false (replaceAll ['$'] ['\\', '$'] _ ++ rest) = _
  simp only [Bash.toBash]
  rw [replaceAll_char]
  split
  · rename_i hany
    have : ((Quote.quote lib.isPrint s).flatMap (fun c => if c = '$' then ['\\', '$'] else [c])) = '"' :: (s.flatMap (escapeDollar lib.isPrint) ++ ['"']) := by
      simp only [Quote.quote, List.flatMap_cons, List.flatMap_append, List.flatMap_nil]
      have e : (s.flatMap (Quote.escape lib.isPrint)).flatMap (fun c => if c = '$' then ['\\', '$'] else [c]) = s.flatMap (escapeDollar lib.isPrint) := by
        rw [List.flatMap_assoc]
        clear hq hany
        induction s with
        | nil => rfl
        | cons c s ih =>
          rw [List.flatMap_cons, List.flatMap_cons, ih (fun c hc => hs c (List.mem_cons_of_mem _ hc))]
          congr 1
          have hc := hs c (by simp)
          unfold escapeDollar
          by_cases h1 : c = '"'
          · subst h1; rfl
          · by_cases h2 : c = '\\'
            · subst h2; rfl
            · rw [escape_ascii ⟨hc.1, hc.2.1⟩ h1 h2]
              simp
      rw [e]
      rfl
    rw [this]
    exact bashWord_quoted (fun c hc t => bashWord_escapeDollar ⟨(hs c hc).1, (hs c hc).2.1⟩ (hs c hc).2.2 t) hr
  · rename_i hn
    rcases hq with ⟨c, hc, hm⟩ | hq
    · exfalso
      refine hn (any_mem.2 ⟨c, hc, ?_⟩)
      have : c = ' ' ∨ c = '[' ∨ c = ']' ∨ c = '(' ∨ c = ')' := by simpa [T] using hm
      rcases this with rfl | rfl | rfl | rfl | rfl <;> decide
    · clear hn hs
      induction s with
      | nil => exact bashWord_end hr
      | cons c s ih =>
        rw [List.flatMap_cons, List.append_assoc]
        have ih' := ih (fun c hc => hq c (List.mem_cons_of_mem _ hc))
        rcases hq c (by simp) with h | rfl
        · rw [if_neg (plain_ne h).1, List.singleton_append, bashWord_plain h, ih']
          rfl
        · simp only [if_true, List.cons_append, List.nil_append]
          rw [bashWord_escaped, ih']
          rfl

theorem bashEntries_str (lib : Bash.Lib) (level : Nat) (es : List (Text × Text)) :
    Bash.bashEntries lib level (es.map (fun e => (e.1, GoVal.str false e.2))) = es.map (fun e => (e.1, Bash.Shape.scalar, Bash.toBash lib level (.str false e.2))) := by
  induction es with
  | nil => rfl
  | cons e l ih => simp [Bash.bashEntries, ih, Bash.shape]

theorem bashEntries_eq (lib : Bash.Lib) (level : Nat) (es : List (Text × GoVal)) :
    Bash.bashEntries lib level es = es.map (fun e => (e.1, Bash.shape e.2, Bash.toBash lib level e.2)) := by
  induction es with
  | nil => rfl
  | cons e l ih => obtain ⟨k, v⟩ := e; simp [Bash.bashEntries, ih]

/-- The entries of an associative array are read back. -/
theorem bashPairs_dict (lib : Bash.Lib) (es : List (Text × Text)) (hk : ∀ e ∈ es, e.1 ≠ [] ∧ ∀ c ∈ e.1, BashPlain c) (hv : ∀ e ∈ es, SafeValue e.2) :
    BashPairs (join [' '] (es.map (fun e => T "[" ++ e.1 ++ T "]=" ++ replaceAll (T "$") (T "\\$") (Bash.toBash lib 2 (.str false e.2))))) es := by
  induction es with
  | nil => exact .nil
  | cons e l ih =>
    obtain ⟨k, s⟩ := e
    have hs := hv (k, s) (by simp)
    have hk' := hk (k, s) (by simp)
    have ih' := ih (fun e he => hk e (List.mem_cons_of_mem _ he)) (fun e he => hv e (List.mem_cons_of_mem _ he))
    by_cases hl : l = []
    · subst hl
      simp only [List.map_cons, List.map_nil, join]
      have e1 : T "[" ++ k ++ T "]=" ++ replaceAll (T "$") (T "\\$") (Bash.toBash lib 2 (.str false s)) =
          '[' :: (k ++ ']' :: '=' :: (replaceAll (T "$") (T "\\$") (Bash.toBash lib 2 (.str false s)) ++ [])) := by
        simp [T]
      rw [e1]
      exact .pair _ _ _ [] _ hk'.1 hk'.2 (bashWord_value lib hs (.inl rfl) 2) .nil
    · rw [List.map_cons, join_cons_of_ne _ _ (by simpa using hl)]
      simp only
      generalize hj : join [' '] (l.map (fun e => T "[" ++ e.1 ++ T "]=" ++ replaceAll (T "$") (T "\\$") (Bash.toBash lib 2 (.str false e.2)))) = j at *
      have e1 : T "[" ++ k ++ T "]=" ++ replaceAll (T "$") (T "\\$") (Bash.toBash lib 2 (.str false s)) ++ [' '] ++ j =
          '[' :: (k ++ ']' :: '=' :: (replaceAll (T "$") (T "\\$") (Bash.toBash lib 2 (.str false s)) ++ ' ' :: j)) := by
        simp [T]
      first
        | rw [e1]
        | rw [← List.append_assoc, e1]
      exact .pair _ _ _ (' ' :: j) _ hk'.1 hk'.2 (bashWord_value lib hs (.inr ⟨' ', j, rfl, .inl rfl⟩) 2) (.blank _ _ _ (.inl rfl) ih')

end Lemmas
end Verif
