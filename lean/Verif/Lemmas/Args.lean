import Verif.Model.Args
import Verif.Spec.ArgsSpec
import Verif.Lemmas.Path
/-!
# Lemmas about lists of patterns and substitutions
-/

namespace Verif.Lemmas
open Verif Text Spec Args

theorem dropWhile_append_all {p : Char → Bool} {a b : Text} (h : ∀ c ∈ a, p c = true) : (a ++ b).dropWhile p = b.dropWhile p := by
  induction a with
  | nil => rfl
  | cons x a ih => rw [List.cons_append, List.dropWhile_cons, if_pos (h x (by simp))]; exact ih (fun c hc => h c (by simp [hc]))

theorem dropWhile_head {p : Char → Bool} {t : Text} (h : ∀ c, t.head? = some c → p c = false) : t.dropWhile p = t := by
  cases t with
  | nil => rfl
  | cons c t => rw [List.dropWhile_cons, if_neg (by simp [h c rfl])]

theorem trimSpace_of_trimmed {s t : Text} (h : Trimmed s t) : trimSpace s = t := by
  obtain ⟨a, b, rfl, ha, hb, h1, h2⟩ := h
  unfold trimSpace trimRightSpace trimLeftSpace
  rw [List.append_assoc, dropWhile_append_all ha]
  cases t with
  | nil => simp [dropWhile_all hb]
  | cons c t =>
    rw [show (c :: t ++ b).dropWhile isSpace = c :: t ++ b from dropWhile_head (by intro x hx; exact h1 x (by simpa using hx))]
    rw [List.reverse_append, dropWhile_append_all (by intro x hx; exact hb x (by simpa using hx))]
    rw [dropWhile_head (by intro x hx; exact h2 x (by rwa [List.head?_reverse] at hx)), List.reverse_reverse]

theorem head_dropWhile {p : Char → Bool} {t : Text} {c : Char} (h : (t.dropWhile p).head? = some c) : p c = false := by
  induction t with
  | nil => simp at h
  | cons x t ih =>
    rw [List.dropWhile_cons] at h
    split at h
    · exact ih h
    · rename_i hx
      simp only [List.head?_cons, Option.some.injEq] at h
      subst h; simpa using hx

theorem trimmed_trimSpace (s : Text) : Trimmed s (trimSpace s) := by
  refine ⟨s.takeWhile isSpace, ((trimLeftSpace s).reverse.takeWhile isSpace).reverse, ?_, ?_, ?_, ?_, ?_⟩
  · unfold trimSpace trimRightSpace
    rw [List.append_assoc, ← List.reverse_append, List.takeWhile_append_dropWhile, List.reverse_reverse]
    exact (List.takeWhile_append_dropWhile (p := isSpace) (l := s)).symm
  · intro c hc; exact List.all_eq_true.1 (List.all_takeWhile (p := isSpace) (l := s)) c hc
  · intro c hc
    exact List.all_eq_true.1 (List.all_takeWhile (p := isSpace) (l := (trimLeftSpace s).reverse)) c (by simpa using hc)
  · intro c hc
    have h : trimSpace s <+: trimLeftSpace s := by
      unfold trimSpace trimRightSpace
      refine ⟨((trimLeftSpace s).reverse.takeWhile isSpace).reverse, ?_⟩
      rw [← List.reverse_append, List.takeWhile_append_dropWhile, List.reverse_reverse]
    obtain ⟨b, hb⟩ := h
    refine head_dropWhile (p := isSpace) (t := s) ?_
    change (trimLeftSpace s).head? = some c
    rw [← hb]
    cases ht : trimSpace s with
    | nil => rw [ht] at hc; simp at hc
    | cons x t => rw [ht] at hc; simpa using hc
  · intro c hc
    unfold trimSpace trimRightSpace at hc
    rw [List.getLast?_reverse] at hc
    exact head_dropWhile hc

theorem trimmed_iff {s t : Text} : Trimmed s t ↔ trimSpace s = t := ⟨trimSpace_of_trimmed, fun h => h ▸ trimmed_trimSpace s⟩

theorem trimmed_self {s t : Text} (h : Trimmed s t) : Trimmed t t := by
  obtain ⟨a, b, rfl, ha, hb, h1, h2⟩ := h
  exact ⟨[], [], by simp, by simp, by simp, h1, h2⟩

theorem trimmed_sub {s t : Text} (h : Trimmed s t) : ∀ c ∈ t, c ∈ s := by
  obtain ⟨a, b, rfl, _⟩ := h
  intro c hc; simp [hc]

theorem lists_iff (s : Text) : ∀ xs, Lists s xs ↔ ((splitC ',' s).map trimSpace).filter (fun sv => sv ≠ []) = xs := by
  intro xs
  constructor
  · intro h
    induction h with
    | one s t h1 h2 h3 => rw [splitC_of_not_mem h1]; simp [trimSpace_of_trimmed h2, h3]
    | none s h1 h2 => rw [splitC_of_not_mem h1]; simp [trimSpace_of_trimmed h2]
    | more s r xs ys h1 _ _ ih1 ih2 =>
      rw [splitC_cut, List.map_append, List.filter_append, ih1, ih2]
  · rintro rfl
    have key : ∀ ls : List Text, ls ≠ [] → (∀ l ∈ ls, ',' ∉ l) → Lists (join [','] ls) ((ls.map trimSpace).filter (fun sv => sv ≠ [])) := by
      intro ls hne hls
      have base : ∀ l : Text, ',' ∉ l → Lists l (([l].map trimSpace).filter (fun sv => sv ≠ [])) := by
        intro l hl
        by_cases ht : trimSpace l = []
        · have := Lists.none l hl (trimmed_iff.2 ht)
          simpa [ht] using this
        · have := Lists.one l _ hl (trimmed_trimSpace l) ht
          simpa [ht] using this
      induction ls with
      | nil => exact absurd rfl hne
      | cons l ls ih =>
        by_cases h : ls = []
        · subst h
          simpa [join] using base l (hls l (by simp))
        · rw [join_cons_of_ne _ _ h, List.append_assoc]
          have := Lists.more l _ _ _ (hls l (by simp)) (base l (hls l (by simp))) (ih h (fun x hx => hls x (by simp [hx])))
          rw [← List.filter_append, ← List.map_append] at this
          exact this
    have := key (splitC ',' s) (splitC_ne_nil _ _) (fun l hl => splitC_no_sep ',' s l hl)
    rwa [join_splitC] at this

theorem listsAll_iff (ss : List Text) : ∀ xs, ListsAll ss xs ↔ extend ss = xs := by
  intro xs
  constructor
  · intro h
    induction h with
    | nil => rfl
    | cons s ss xs ys h1 _ ih =>
      unfold extend at ih ⊢
      rw [List.flatMap_cons, ih, (lists_iff s xs).1 h1]
  · rintro rfl
    induction ss with
    | nil => exact .nil
    | cons s ss ih => exact .cons s ss _ _ ((lists_iff s _).2 rfl) ih

theorem excluded_some {lib : PathLib} {file : Text} {ps : List Text} {b : Bool} (h : excluded lib file ps = some b) :
    b = true ↔ ∃ p ∈ ps, ∃ p', lib.abs p = some p' ∧ lib.pathMatch p' file = some true := by
  induction ps with
  | nil => simp only [excluded, Option.some.injEq] at h; subst h; simp
  | cons p ps ih =>
    simp only [excluded] at h
    split at h
    · cases h
    · rename_i p' hp
      split at h
      · cases h
      · rename_i hm
        injection h with h; subst h
        exact ⟨fun _ => ⟨p, by simp, p', hp, hm⟩, fun _ => rfl⟩
      · rename_i hm
        rw [ih h]
        constructor
        · rintro ⟨q, hq, r⟩; exact ⟨q, by simp [hq], r⟩
        · rintro ⟨q, hq, q', h1, h2⟩
          rcases List.mem_cons.1 hq with rfl | hq
          · rw [hp] at h1; injection h1 with h1; subst h1; rw [hm] at h2; cases h2
          · exact ⟨q, hq, q', h1, h2⟩

theorem excluded_none {lib : PathLib} {file : Text} {ps : List Text} (h : excluded lib file ps = none) :
    ∃ p ∈ ps, lib.abs p = none ∨ ∃ p', lib.abs p = some p' ∧ lib.pathMatch p' file = none := by
  induction ps with
  | nil => cases h
  | cons p ps ih =>
    simp only [excluded] at h
    split at h
    · rename_i hp; exact ⟨p, by simp, .inl hp⟩
    · rename_i p' hp
      split at h
      · rename_i hm; exact ⟨p, by simp, .inr ⟨p', hp, hm⟩⟩
      · cases h
      · obtain ⟨q, hq, r⟩ := ih h
        exact ⟨q, by simp [hq], r⟩

theorem excludeLoop_true {lib : PathLib} {ps files acc r : List Text} (h : excludeLoop lib ps files acc = (r, true)) :
    ∀ b : Text → Bool, (∀ f ∈ files, b f = true ↔ ∃ p ∈ ps, ∃ p' f', lib.abs p = some p' ∧ lib.abs f = some f' ∧ lib.pathMatch p' f' = some true) →
      r = acc ++ files.filter (fun f => !b f) := by
  intro b hb
  induction files generalizing acc with
  | nil => simp only [excludeLoop, Prod.mk.injEq] at h; simp [h.1]
  | cons f fs ih =>
    simp only [excludeLoop] at h
    split at h
    · cases h
    · rename_i f' hf
      split at h
      · cases h
      · rename_i e he
        have := ih h (fun x hx => hb x (by simp [hx]))
        rw [this]
        have heq : e = b f := by
          rw [Bool.eq_iff_iff, excluded_some he, hb f (by simp)]
          constructor
          · rintro ⟨p, hp, p', h1, h2⟩; exact ⟨p, hp, p', f', h1, hf, h2⟩
          · rintro ⟨p, hp, p', f'', h1, h2, h3⟩
            rw [hf] at h2; injection h2 with h2; subst h2
            exact ⟨p, hp, p', h1, h3⟩
        subst heq
        cases h2 : b f <;> simp [h2]

theorem excludeLoop_false {lib : PathLib} {ps files acc r : List Text} (h : excludeLoop lib ps files acc = (r, false)) :
    ∃ f ∈ files, lib.abs f = none ∨ ∃ f', lib.abs f = some f' ∧ ∃ p ∈ ps, lib.abs p = none ∨ ∃ p', lib.abs p = some p' ∧ lib.pathMatch p' f' = none := by
  induction files generalizing acc with
  | nil => simp [excludeLoop] at h
  | cons f fs ih =>
    simp only [excludeLoop] at h
    split at h
    · rename_i hf; exact ⟨f, by simp, .inl hf⟩
    · rename_i f' hf
      split at h
      · rename_i he; exact ⟨f, by simp, .inr ⟨f', hf, excluded_none he⟩⟩
      · obtain ⟨g, hg, r⟩ := ih h
        exact ⟨g, by simp [hg], r⟩

/-! ## Substitutions -/

theorem splitC_three {sep : Char} {s a b c : Text} : splitC sep s = [a, b, c] ↔ s = a ++ sep :: b ++ sep :: c ∧ sep ∉ a ∧ sep ∉ b ∧ sep ∉ c := by
  constructor
  · intro h
    have := join_splitC sep s
    rw [h] at this
    refine ⟨by rw [← this]; simp [join], ?_, ?_, ?_⟩ <;> exact splitC_no_sep sep s _ (by rw [h]; simp)
  · rintro ⟨rfl, ha, hb, hc⟩
    rw [splitC_cut, splitC_cut, splitC_of_not_mem ha, splitC_of_not_mem hb, splitC_of_not_mem hc]
    rfl

theorem byteChar_ascii {c : Char} (h : c.toNat < 128) : byteChar c = c := by
  unfold byteChar; simp [h]

theorem parse_iff {s t : Text} (ht : Trimmed s t) (ha : ∀ c, t.head? = some c → c.toNat < 128) (r : Text × Text) :
    parseReplacer s = some r ↔ ∃ sep expr repl, IsSubstitution sep t expr repl ∧ r = deletion expr repl := by
  unfold parseReplacer
  rw [trimSpace_of_trimmed ht]
  cases t with
  | nil =>
    simp only [reduceCtorEq, false_iff]
    rintro ⟨sep, expr, repl, ⟨h, _⟩, _⟩
    cases h
  | cons c cs =>
    dsimp only
    rw [byteChar_ascii (ha c rfl)]
    constructor
    · intro h
      split at h
      · rename_i x expr repl hs
        split at h
        · cases h
        · rename_i he
          injection h with h
          obtain ⟨h1, h2, h3, h4⟩ := splitC_three.1 hs
          have hx : x = [] := by
            cases x with
            | nil => rfl
            | cons y x =>
              simp only [List.cons_append, List.cons.injEq] at h1
              exact absurd (by rw [h1.1]; simp) h2
          subst hx
          refine ⟨c, expr, repl, ⟨h1, he, h3, h4⟩, h.symm⟩
      · cases h
    · rintro ⟨sep, expr, repl, ⟨h1, h2, h3, h4⟩, rfl⟩
      have hc : c = sep := by simp only [List.cons_append, List.cons.injEq] at h1; exact h1.1
      subst hc
      have : splitC c (c :: cs) = [[], expr, repl] := splitC_three.2 ⟨h1, by simp, h3, h4⟩
      rw [this]
      simp [h2]

end Verif.Lemmas
