import Verif.Lemmas.Protect
/-!
# C18, C19: protection of the string literals
-/

namespace Verif
open Protect Spec

/-- C18. A text that does not contain the marker is given back unchanged. -/
theorem C18_round_trip (s : Text) (h : '♠' ∉ s) : restore (protect s).1 (protect s).2 = some s := by
  obtain ⟨pieces, tail, hc, he⟩ := protectLoop_cut s.length 0 s (Nat.le_refl _)
  obtain ⟨h1, h2, _⟩ := cut_text hc
  unfold protect restore
  rw [he]
  simp only
  rw [restore_marked _ pieces 0 tail (fun p hp => (h2 p hp).1) (by intro i p hp; simp [hp]) ?_, ← h1]
  intro a b hab
  cases hm : matchToken b with
  | none => rfl
  | some r =>
    obtain ⟨ds, rest, rfl, _⟩ := matchToken_some (i := r.1) (len := r.2) hm
    exact absurd (by rw [h1, hab]; simp) h

/-- C18, further. The marker is harmless unless it follows a backtick that is never closed: the text is also given back
when the part left after the last literal does not start with an open backtick. -/
theorem C18_round_trip_marker (s : Text) (pieces : List (Text × Text)) (tail : Text) (hc : Cut s pieces tail)
    (hb : ∀ pre rest, tail = pre ++ '`' :: rest → ¬ Plain pre) : restore (protect s).1 (protect s).2 = some s := by
  obtain ⟨pieces', tail', hc', he⟩ := protectLoop_cut s.length 0 s (Nat.le_refl _)
  obtain ⟨rfl, rfl⟩ := cut_unique hc hc'
  obtain ⟨h1, h2, h3⟩ := cut_text hc
  unfold protect restore
  rw [he]
  simp only
  rw [restore_marked _ pieces 0 tail (fun p hp => (h2 p hp).1) (by intro i p hp; simp [hp]) (noToken_tail h3 hb), ← h1]

/-- The hypothesis about the marker is needed: `RestoreProtected` panics (index out of range) here. -/
theorem C18_marker_needed : restore (protect (T "`\"♠0\"")).1 (protect (T "`\"♠0\"")).2 = none := by decide

/-- ... and here it restores the wrong text. -/
theorem C18_marker_needed_wrong_text :
    restore (protect (T "\"a\"`\"♠0\"")).1 (protect (T "\"a\"`\"♠0\"")).2 = some (T "\"a\"`\"a\"") := by decide

example : protect (T "a \"b\\\"c\" `d\"` \"e") = (T "a \"♠0\" \"♠1\" \"e", [T "\"b\\\"c\"", T "`d\"`"]) ∧
    '♠' ∉ T "a \"b\\\"c\" `d\"` \"e" := by decide

/-- C19. The text is cut, in a unique way, in plain texts followed by complete literals, and a rest where the first quote is
not closed; the result is the text with one mark for each literal and the list of those literals. -/
theorem C19_protect_spec (s : Text) : ∃ pieces tail, Cut s pieces tail ∧
    (∀ pieces' tail', Cut s pieces' tail' → pieces' = pieces ∧ tail' = tail) ∧
    protect s = (marked token 0 pieces tail, pieces.map Prod.snd) := by
  obtain ⟨pieces, tail, hc, he⟩ := protectLoop_cut s.length 0 s (Nat.le_refl _)
  exact ⟨pieces, tail, hc, fun _ _ h => cut_unique h hc, he⟩

/-- C19. The pieces recompose the text, each literal is a complete string literal, and no quote is outside the
literals, except in the rest. -/
theorem C19_pieces (s : Text) (pieces : List (Text × Text)) (tail : Text) (h : Cut s pieces tail) :
    s = (pieces.map (fun p => p.1 ++ p.2)).flatten ++ tail ∧ (∀ p ∈ pieces, Plain p.1 ∧ Literal p.2) ∧ NoLiteral tail :=
  cut_text h

/-- C19. The extracted texts are complete literals. -/
theorem C19_literals (s lit : Text) (h : lit ∈ (protect s).2) : Literal lit := by
  obtain ⟨pieces, tail, hc, he⟩ := protectLoop_cut s.length 0 s (Nat.le_refl _)
  unfold protect at h
  rw [he] at h
  obtain ⟨p, hp, rfl⟩ := List.mem_map.1 h
  exact ((cut_text hc).2.1 p hp).2

/-- C19. A text without quotes is not touched. -/
theorem C19_plain (s : Text) (h : Plain s) : protect s = (s, []) := by
  unfold protect
  cases s with
  | nil => rfl
  | cons c cs => simp only [List.length_cons, protectLoop, firstQuote_none.2 h]

/-- C19. A text that is one literal is replaced by one mark. -/
theorem C19_single (lit : Text) (h : Literal lit) : protect lit = (token 0, [lit]) := by
  obtain ⟨pieces, tail, hc, hu, he⟩ := C19_protect_spec lit
  have hn : NoLiteral [] := by intro pre q rest lit after h; simp at h
  have := hu [([], lit)] [] (by simpa using Cut.literal (pre := []) (by intro c hc; simp at hc) h (Cut.tail hn))
  rw [he, ← this.1, ← this.2]
  simp [marked]

example : Cut (T "x\"y\"`z") [(T "x", T "\"y\"")] (T "`z") := by
  have h : Literal (T "\"y\"") := Literal.double ['y'] (by
      intro pre post h
      match pre with
      | [] => simp at h
      | [_] => simp at h
      | _ :: _ :: _ => simp at h) (by
      rintro ⟨pre, n, h, _⟩
      have := congrArg List.getLast? h
      rw [List.replicate_succ', ← List.append_assoc, List.getLast?_concat] at this
      simp at this)
  refine Cut.literal (pre := T "x") (lit := T "\"y\"") (rest := T "`z") (by intro c hc; simp [T] at hc; subst hc; simp [Quote]) h (Cut.tail ?_)
  intro pre q rest lit after h _ _ hl he
  obtain ⟨q', b, hq, rfl⟩ := literal_form hl
  match pre with
  | [] =>
    have h1 := congrArg List.tail h
    simp only [List.nil_append, List.tail_cons] at h1
    have h2 := congrArg List.tail he
    rw [List.tail_cons, ← h1] at h2
    have h3 := congrArg List.length h2
    simp [T] at h3
    have hb : b = [] := List.length_eq_zero_iff.1 (by omega)
    subst hb
    simp [T] at h2
    rcases hq with rfl | rfl <;> simp at h2
  | [_] =>
    simp [T] at h
    obtain ⟨_, rfl, rfl⟩ := h
    have := congrArg List.length he
    simp at this
  | _ :: _ :: _ => simp [T] at h

end Verif
