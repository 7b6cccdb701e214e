import Verif.Model.ListFuncs
import Verif.Spec.RawValueSpec

/-!
Lemmas on the substitutions that take raw values out of their marks.
-/

namespace Verif.Lemmas
open Verif Verif.Text Verif.ListFuncs Verif.Spec

/-- The result of a substitution, with any fuel that is enough. -/
def Res (f : Text → Option (Text × Text)) (o : Text → Text) (s t : Text) : Prop := ∀ n, s.length ≤ n → replaceMarked f o n s = t

theorem res_nil (f : Text → Option (Text × Text)) (o : Text → Text) : Res f o [] [] := by
  intro n _
  cases n <;> rfl

theorem res_copy {f : Text → Option (Text × Text)} {o : Text → Text} {c : Char} {s t : Text}
    (h : (dropPrefix? openQ (c :: s)).bind f = none) (hs : Res f o s t) : Res f o (c :: s) (c :: t) := by
  intro n hn
  cases n with
  | zero => simp at hn
  | succ n =>
    rw [replaceMarked, h]
    simp only
    rw [hs n (by simpa using hn)]

theorem res_match {f : Text → Option (Text × Text)} {o : Text → Text} {u w rest t : Text}
    (h : f u = some (w, rest)) (hl : rest.length ≤ u.length) (hs : Res f o rest t) : Res f o (openQ ++ u) (o w ++ t) := by
  intro n hn
  cases n with
  | zero => simp [openQ] at hn
  | succ n =>
    have e : openQ ++ u = '"' :: (mark ++ u) := rfl
    have hd : dropPrefix? openQ ('"' :: (mark ++ u)) = some u := dropPrefix?_eq_some.2 rfl
    rw [e, replaceMarked, hd, Option.bind_some, h]
    simp only
    rw [hs n]
    rw [e] at hn
    simp only [List.length_cons, List.length_append] at hn
    omega

theorem res_skip {f : Text → Option (Text × Text)} {o : Text → Text} (a : Text) {s t : Text}
    (h : ∀ x y, a = x ++ y → y ≠ [] → ¬ openQ <+: y ++ s) (hs : Res f o s t) : Res f o (a ++ s) (a ++ t) := by
  induction a with
  | nil => exact hs
  | cons c a ih =>
    refine res_copy ?_ (ih fun x y e hy => h (c :: x) y (by rw [e]; rfl) hy)
    have := h [] (c :: a) rfl (by simp)
    cases hd : dropPrefix? openQ (c :: (a ++ s)) with
    | none => rfl
    | some r =>
      exact absurd ⟨r, (dropPrefix?_eq_some.1 hd).symm⟩ this

/-- A beginning of `a ++ b` ends in `a` or goes on in `b`. -/
theorem prefix_append_cases {m a b : Text} (h : m <+: a ++ b) : m <+: a ∨ ∃ m', m = a ++ m' ∧ m' <+: b := by
  rcases Nat.le_total m.length a.length with hl | hl
  · exact .inl (List.prefix_of_prefix_length_le h (List.prefix_append a b) hl)
  · obtain ⟨m', rfl⟩ := List.prefix_of_prefix_length_le (List.prefix_append a b) h hl
    exact .inr ⟨m', rfl, (List.prefix_append_right_inj a).1 h⟩

/-- A word without quotes at the beginning of `a`, then a quote, is at the beginning of `a`. -/
theorem prefix_before_quote {m a b : Text} (hm : '"' ∉ m) (h : m <+: a ++ '"' :: b) : m <+: a := by
  rcases prefix_append_cases h with h1 | ⟨m', rfl, h1⟩
  · exact h1
  · cases m' with
    | nil => simp
    | cons c m' =>
      rw [List.cons_prefix_cons] at h1
      exact absurd (by simp [h1.1]) hm

theorem quote_not_mark : '"' ∉ mark := by decide

theorem open_cons {y s : Text} (hy : y ≠ []) (h : openQ <+: y ++ s) : ∃ y', y = '"' :: y' ∧ mark <+: y' ++ s := by
  cases y with
  | nil => exact absurd rfl hy
  | cons c y =>
    have h' : '"' :: mark <+: c :: (y ++ s) := h
    rw [List.cons_prefix_cons] at h'
    exact ⟨y, by rw [h'.1], h'.2⟩

/-- The closing mark is found at the first place where it can begin. -/
theorem closeAt_found (allowed : Char → Bool) (w rest : Text) (hw : ∀ c ∈ w, allowed c = true) (hm : ¬ mark <:+: w) :
    closeAt allowed (w ++ (closeQ ++ rest)) = some (w, rest) := by
  induction w with
  | nil =>
    have hd : dropPrefix? closeQ (closeQ ++ rest) = some rest := dropPrefix?_eq_some.2 rfl
    have e : closeQ ++ rest = '!' :: ('Q' :: '!' :: '"' :: rest) := rfl
    rw [List.nil_append]
    rw [e] at hd ⊢
    rw [closeAt, hd]
  | cons c w ih =>
    have hn : dropPrefix? closeQ (c :: (w ++ (closeQ ++ rest))) = none := by
      cases hd : dropPrefix? closeQ (c :: (w ++ (closeQ ++ rest))) with
      | none => rfl
      | some r =>
        exfalso
        have hp : closeQ <+: (c :: w) ++ (closeQ ++ rest) := ⟨r, (dropPrefix?_eq_some.1 hd).symm⟩
        rcases prefix_append_cases hp with h | ⟨m', e, h⟩
        · exact hm (((List.prefix_append mark ['"']).trans h).isInfix)
        · have e' : closeQ ++ rest = '!' :: ('Q' :: '!' :: '"' :: rest) := rfl
          rw [e'] at h
          have hq : closeQ = ['!', 'Q', '!', '"'] := rfl
          rw [hq] at e
          match w, e with
          | [], e => simp at e; obtain ⟨_, rfl⟩ := e; simp at h
          | [_], e => simp at e; obtain ⟨_, _, rfl⟩ := e; simp at h
          | [_, _], e => simp at e; obtain ⟨_, _, _, rfl⟩ := e; simp at h
          | a :: b :: d :: w, e =>
            simp at e
            obtain ⟨rfl, rfl, rfl, rfl, _⟩ := e
            exact hm ⟨[], '"' :: w, by rfl⟩
    rw [List.cons_append, closeAt, hn]
    simp only
    rw [if_pos (hw c List.mem_cons_self), ih (fun d hd => hw d (List.mem_cons_of_mem _ hd)) (fun h => hm (h.trans (List.suffix_cons c w).isInfix))]
    rfl

theorem closeAt_blocked (allowed : Char → Bool) (w rest : Text) (hw : ∃ c ∈ w, allowed c = false) (hm : ¬ mark <:+: w) :
    closeAt allowed (w ++ (closeQ ++ rest)) = none := by
  induction w with
  | nil => obtain ⟨c, hc, _⟩ := hw; cases hc
  | cons c w ih =>
    have hf := closeAt_found (fun _ => true) (c :: w) rest (fun _ _ => rfl) hm
    rw [List.cons_append, closeAt] at hf ⊢
    cases hd : dropPrefix? closeQ (c :: (w ++ (closeQ ++ rest))) with
    | some r => rw [hd] at hf; simp at hf
    | none =>
      simp only
      split
      · rename_i ha
        obtain ⟨d, hd', hb⟩ := hw
        rw [ih ⟨d, ?_, hb⟩ (fun h => hm (h.trans (List.suffix_cons c w).isInfix))]
        · rfl
        · rcases List.mem_cons.1 hd' with e | e
          · rw [e, ha] at hb; cases hb
          · exact e
      · rfl

theorem isSolid_iff (c : Char) : isSolid c = false ↔ IsSpace c := by
  unfold isSolid IsSpace
  simp only [Bool.not_eq_false', Bool.or_eq_true, beq_iff_eq, or_assoc]

theorem closeAfter_found {w : Text} (rest : Text) (hne : w ≠ []) (hw : ¬ ∃ c ∈ w, IsSpace c) (hm : ¬ mark <:+: w) :
    closeAfter isSolid (w ++ (closeQ ++ rest)) = some (w, rest) := by
  have hs : ∀ c ∈ w, isSolid c = true := by
    intro c hc
    cases h : isSolid c with
    | true => rfl
    | false => exact absurd ⟨c, hc, (isSolid_iff c).1 h⟩ hw
  cases w with
  | nil => exact absurd rfl hne
  | cons c w =>
    rw [List.cons_append, closeAfter, if_pos (hs c List.mem_cons_self),
      closeAt_found _ _ _ (fun d hd => hs d (List.mem_cons_of_mem _ hd)) (fun h => hm (h.trans (List.suffix_cons c w).isInfix))]
    rfl

theorem closeAfter_blocked {w : Text} (rest : Text) (hw : ∃ c ∈ w, IsSpace c) (hm : ¬ mark <:+: w) :
    closeAfter isSolid (w ++ (closeQ ++ rest)) = none := by
  cases w with
  | nil => obtain ⟨c, hc, _⟩ := hw; cases hc
  | cons c w =>
    rw [List.cons_append, closeAfter]
    split
    · rename_i ha
      obtain ⟨d, hd, hb⟩ := hw
      have hb' := (isSolid_iff d).2 hb
      rw [closeAt_blocked _ _ _ ⟨d, ?_, hb'⟩ (fun h => hm (h.trans (List.suffix_cons c w).isInfix))]
      · rfl
      · rcases List.mem_cons.1 hd with e | e
        · rw [e, ha] at hb'; cases hb'
        · exact e
    · rfl

/-- The text after the first of the substitutions. -/
def rawHalf : List RawPiece → Text → Text
  | [], tail => tail
  | p :: ps, tail => p.before ++ (if ∃ c ∈ p.value, IsSpace c then openQ ++ (p.value ++ closeQ) else p.value) ++ rawHalf ps tail

theorem agree_written (m : Text) (hm : '"' ∉ m) (ps : List RawPiece) (tail a : Text) (h : m <+: a ++ rawWritten ps tail) : m <:+: a ++ rawExpected ps tail := by
  cases ps with
  | nil => exact h.isInfix
  | cons p ps =>
    have e : a ++ rawWritten (p :: ps) tail = (a ++ p.before) ++ '"' :: (mark ++ p.value ++ closeQ ++ rawWritten ps tail) := by
      simp [rawWritten, mark, closeQ, T]
    rw [e] at h
    have h2 := (prefix_before_quote hm h).isInfix
    refine h2.trans ⟨[], rawShown p.value ++ rawExpected ps tail, by simp [rawExpected]⟩

theorem agree_half (m : Text) (hm : '"' ∉ m) (ps : List RawPiece) (tail a : Text) (h : m <+: a ++ rawHalf ps tail) : m <+: a ++ rawExpected ps tail := by
  induction ps generalizing a with
  | nil => exact h
  | cons p ps ih =>
    unfold rawHalf at h
    unfold rawExpected rawShown
    split at h
    · rename_i hs
      rw [if_pos hs]
      have e : a ++ (p.before ++ (openQ ++ (p.value ++ closeQ)) ++ rawHalf ps tail) = (a ++ p.before) ++ '"' :: (mark ++ (p.value ++ closeQ) ++ rawHalf ps tail) := by
        simp [openQ]
      rw [e] at h
      refine (prefix_before_quote hm h).trans ⟨'"' :: (p.value ++ ['"']) ++ rawExpected ps tail, by simp⟩
    · rename_i hs
      rw [if_neg hs]
      have e : a ++ (p.before ++ p.value ++ rawHalf ps tail) = (a ++ (p.before ++ p.value)) ++ rawHalf ps tail := by simp
      rw [e] at h
      have := ih _ h
      simpa using this

theorem value_infix (p : RawPiece) (ps : List RawPiece) (tail : Text) : p.value <:+: rawExpected (p :: ps) tail := by
  unfold rawExpected rawShown
  split
  · exact ⟨p.before ++ ['"'], '"' :: rawExpected ps tail, by simp⟩
  · exact ⟨p.before, rawExpected ps tail, by simp⟩

theorem rest_infix (p : RawPiece) (ps : List RawPiece) (tail : Text) : rawExpected ps tail <:+: rawExpected (p :: ps) tail :=
  ⟨p.before ++ rawShown p.value, [], by simp [rawExpected]⟩

theorem unquote_first (ps : List RawPiece) (tail : Text) (hg : ∀ p ∈ ps, GoodRaw p.value) (hm : ¬ mark <:+: rawExpected ps tail) :
    Res (closeAfter isSolid) id (rawWritten ps tail) (rawHalf ps tail) := by
  induction ps with
  | nil =>
    have := res_skip (f := closeAfter isSolid) (o := id) tail (s := []) (t := []) ?_ (res_nil _ _)
    · simpa [rawWritten, rawHalf] using this
    · intro x y e hy ho
      obtain ⟨y', rfl, h⟩ := open_cons hy ho
      refine hm (h.isInfix.trans ⟨x ++ ['"'], [], ?_⟩)
      simp [rawExpected, e]
  | cons p ps ih =>
    have ih' := ih (fun q hq => hg q (List.mem_cons_of_mem _ hq)) (fun h => hm (h.trans (rest_infix p ps tail)))
    have hv : ¬ mark <:+: p.value := fun h => hm (h.trans (value_infix p ps tail))
    have e : rawWritten (p :: ps) tail = p.before ++ (openQ ++ (p.value ++ (closeQ ++ rawWritten ps tail))) := by
      simp [rawWritten, openQ, closeQ, mark, T]
    rw [e, rawHalf, List.append_assoc]
    refine res_skip _ ?_ ?_
    · intro x y e hy ho
      obtain ⟨y', rfl, h⟩ := open_cons hy ho
      have h2 : mark <+: y' := prefix_before_quote quote_not_mark h
      refine hm (h2.isInfix.trans ⟨x ++ ['"'], rawShown p.value ++ rawExpected ps tail, ?_⟩)
      simp [rawExpected, e]
    · obtain ⟨hne, hsp⟩ := hg p List.mem_cons_self
      split
      · rename_i hs
        have hb := closeAfter_blocked (rawWritten ps tail) hs hv
        have hd : dropPrefix? openQ (openQ ++ (p.value ++ (closeQ ++ rawWritten ps tail))) = some (p.value ++ (closeQ ++ rawWritten ps tail)) := dropPrefix?_eq_some.2 rfl
        have e1 : openQ ++ (p.value ++ (closeQ ++ rawWritten ps tail)) = '"' :: ((mark ++ p.value ++ closeQ) ++ rawWritten ps tail) := by simp [openQ]
        have e2 : openQ ++ (p.value ++ closeQ) ++ rawHalf ps tail = '"' :: ((mark ++ p.value ++ closeQ) ++ rawHalf ps tail) := by simp [openQ]
        rw [e1] at hd ⊢
        rw [e2]
        refine res_copy (by rw [hd, Option.bind_some, hb]) ?_
        refine res_skip _ ?_ ih'
        intro x y e hy ho
        obtain ⟨y', rfl, h⟩ := open_cons hy ho
        -- the only quote is the last character
        have hq : '"' ∉ mark ++ p.value ++ mark := by
          simp only [List.mem_append, not_or]
          exact ⟨⟨quote_not_mark, (hsp hs).2⟩, quote_not_mark⟩
        have e3 : (mark ++ p.value ++ mark) ++ ['"'] = x ++ '"' :: y' := by rw [← e]; simp [closeQ]
        have hy' : y' = [] := by
          rcases List.append_eq_append_iff.1 e3 with ⟨a', h1, h2⟩ | ⟨c', h1, h2⟩
          · cases a' with
            | nil => simpa using h2.symm
            | cons b a' => simp at h2
          · cases c' with
            | nil => simpa using h2
            | cons b c' =>
              simp only [List.cons_append, List.cons.injEq] at h2
              exact absurd (by rw [h1, ← h2.1]; simp) hq
        subst hy'
        exact hm ((agree_written mark quote_not_mark ps tail [] h).trans (rest_infix p ps tail))
      · rename_i hs
        exact res_match (closeAfter_found _ hne hs hv) (by simp; omega) ih'

theorem unquote_second (ps : List RawPiece) (tail : Text) (hg : ∀ p ∈ ps, GoodRaw p.value) (hm : ¬ mark <:+: rawExpected ps tail) :
    Res (closeAt (· != '\n')) (fun w => '"' :: (w ++ ['"'])) (rawHalf ps tail) (rawExpected ps tail) := by
  induction ps with
  | nil =>
    have := res_skip (f := closeAt (· != '\n')) (o := fun w => '"' :: (w ++ ['"'])) tail (s := []) (t := []) ?_ (res_nil _ _)
    · simpa [rawExpected, rawHalf] using this
    · intro x y e hy ho
      obtain ⟨y', rfl, h⟩ := open_cons hy ho
      refine hm (h.isInfix.trans ⟨x ++ ['"'], [], ?_⟩)
      simp [rawExpected, e]
  | cons p ps ih =>
    have ih' := ih (fun q hq => hg q (List.mem_cons_of_mem _ hq)) (fun h => hm (h.trans (rest_infix p ps tail)))
    have hv : ¬ mark <:+: p.value := fun h => hm (h.trans (value_infix p ps tail))
    obtain ⟨hne, hsp⟩ := hg p List.mem_cons_self
    rw [rawHalf]
    by_cases hs : ∃ c ∈ p.value, IsSpace c
    · have e1 : rawExpected (p :: ps) tail = p.before ++ ('"' :: (p.value ++ ['"']) ++ rawExpected ps tail) := by
        simp [rawExpected, rawShown, if_pos hs]
      have e2 : p.before ++ openQ ++ (p.value ++ closeQ) ++ rawHalf ps tail = p.before ++ (openQ ++ (p.value ++ (closeQ ++ rawHalf ps tail))) := by simp
      rw [if_pos hs, ← List.append_assoc, e2]
      rw [e1]
      refine res_skip _ ?_ ?_
      · intro x y e hy ho
        obtain ⟨y', rfl, h⟩ := open_cons hy ho
        have h2 : mark <+: y' := prefix_before_quote quote_not_mark h
        refine hm (h2.isInfix.trans ⟨x ++ ['"'], rawShown p.value ++ rawExpected ps tail, ?_⟩)
        simp [rawExpected, e]
      · refine res_match (closeAt_found _ _ _ ?_ hv) (by simp; omega) ih'
        intro c hc
        simp only [bne_iff_ne, ne_eq]
        exact fun h => (hsp hs).1 (h ▸ hc)
    · have e1 : rawExpected (p :: ps) tail = (p.before ++ p.value) ++ rawExpected ps tail := by
        simp [rawExpected, rawShown, if_neg hs]
      rw [if_neg hs, e1]
      refine res_skip _ ?_ ih'
      intro x y e hy ho
      obtain ⟨y', rfl, h⟩ := open_cons hy ho
      have h2 := agree_half mark quote_not_mark ps tail y' h
      refine hm (h2.isInfix.trans ⟨x ++ ['"'], [], ?_⟩)
      rw [e1, e]
      simp

end Verif.Lemmas
