import Verif.Model.Script
import Verif.Spec.ScriptSpec
import Verif.Lemmas.Files
import Verif.Lemmas.Args

/-!
Lemmas on the expression that reads the first line of a script.
-/

namespace Verif.Lemmas
open Verif Verif.Text Verif.Files Verif.Script Verif.Spec

theorem starG_some {β : Type} {p : Char → Bool} {s : Text} {k : Text → Text → Option β} {x : β} (h : starG p s k = some x) :
    ∃ w r, s = w ++ r ∧ (∀ c ∈ w, p c = true) ∧ k w r = some x := by
  induction s generalizing k with
  | nil => exact ⟨[], [], rfl, by simp, h⟩
  | cons c s ih =>
    rw [starG] at h
    split at h
    · rename_i hc
      rw [Option.or_eq_some_iff] at h
      rcases h with h | ⟨_, h⟩
      · obtain ⟨w, r, e, hw, hk⟩ := ih h
        refine ⟨c :: w, r, by rw [e]; rfl, ?_, hk⟩
        intro d hd
        rcases List.mem_cons.1 hd with e | e
        · rw [e]; exact hc
        · exact hw d e
      · exact ⟨[], c :: s, rfl, by simp, h⟩
    · exact ⟨[], c :: s, rfl, by simp, h⟩

/-- The longest text is preferred. -/
theorem starG_longest {β : Type} {p : Char → Bool} (w r : Text) {k : Text → Text → Option β} {x : β} (hw : ∀ c ∈ w, p c = true)
    (hr : ∀ c, r.head? = some c → p c = false) (h : k w r = some x) : starG p (w ++ r) k = some x := by
  induction w generalizing k with
  | nil =>
    cases r with
    | nil => exact h
    | cons c r => rw [List.nil_append, starG, if_neg (by rw [hr c rfl]; simp)]; exact h
  | cons c w ih =>
    rw [List.cons_append, starG, if_pos (hw c (by simp)), Option.or_eq_some_iff]
    exact .inl (ih (fun d hd => hw d (by simp [hd])) h)

/-- Some text is taken if one of them can be. -/
theorem starG_exists {β : Type} {p : Char → Bool} (w r : Text) {k : Text → Text → Option β} {x : β} (hw : ∀ c ∈ w, p c = true) (h : k w r = some x) :
    ∃ y, starG p (w ++ r) k = some y := by
  induction w generalizing k with
  | nil =>
    cases r with
    | nil => exact ⟨x, h⟩
    | cons c r =>
      rw [List.nil_append, starG]
      split
      · cases hs : starG p r fun w r => k (c :: w) r with
        | some y => exact ⟨y, rfl⟩
        | none => exact ⟨x, h⟩
      · exact ⟨x, h⟩
  | cons c w ih =>
    obtain ⟨y, hy⟩ := ih (k := fun w r => k (c :: w) r) (fun d hd => hw d (by simp [hd])) h
    refine ⟨y, ?_⟩
    rw [List.cons_append, starG, if_pos (hw c (by simp)), hy]
    rfl

theorem sourcePart_eq (p a : Text) (s : Text) : sourcePart p a s = some (p, a, s.dropWhile reSpace) := by
  obtain ⟨w, r, e, d, hw, hr⟩ := takeWhile_spec reSpace s
  unfold sourcePart
  rw [d, e]
  refine starG_longest w r hw ?_ rfl
  intro c hc
  rcases hr with rfl | ⟨x, t, rfl, hx⟩
  · simp at hc
  · simp only [List.head?_cons, Option.some.injEq] at hc
    rw [← hc]; exact hx

theorem atEnd_iff {s : Text} : atEnd s = true ↔ s = [] ∨ ∃ more, s = '\n' :: more := by
  unfold atEnd
  cases s with
  | nil => simp
  | cons c s => simp

theorem isGap_iff {c : Char} : IsGap c ↔ reSpace c = true := reSpace_iff.symm

theorem isBlank_iff {c : Char} : isBlank c = true ↔ c = ' ' ∨ c = '\t' := by simp [isBlank]

theorem blank_reSpace {c : Char} (h : isBlank c = true) : reSpace c = true := by
  rw [reSpace_iff]
  rcases isBlank_iff.1 h with h | h <;> simp [h]

theorem lineBlank_reSpace {a : Text} (h : LineBlank a) : ∀ c ∈ a, reSpace c = true := by
  intro c hc
  rw [reSpace_iff]
  rcases h c hc with h | h | h | h <;> simp [h]

theorem reSpace_isSpace {c : Char} (h : reSpace c = true) : isSpace c = true := by
  rcases reSpace_iff.1 h with h | h | h | h | h <;> subst h <;> decide

/-- The result of a header with a program. -/
theorem header_found {s p a src : Text} (h : ScriptLine s p a src) : header s sourcePart = some (p, a, src) := by
  obtain ⟨before, gap, after, rest, blanks, rfl, hb, hp, hup, hg, hua, hga, hla, hre, hrs, hbl, hsrc⟩ := h
  have hT : T "#!" = ['#', '!'] := by decide
  have hend : ∀ c, (after ++ rest).head? = some c → (!reSpace c) = false := by
    intro c hc
    cases after with
    | nil =>
      rcases hre with rfl | ⟨more, rfl⟩
      · simp at hc
      · simp only [List.nil_append, List.head?_cons, Option.some.injEq] at hc
        subst hc; decide
    | cons x after =>
      simp only [List.cons_append, List.head?_cons, Option.some.injEq] at hc
      subst hc
      simp [lineBlank_reSpace hla x (by simp)]
  unfold header
  refine starG_longest (p := reSpace) [] (T "#!" ++ before ++ p ++ gap ++ a ++ after ++ rest) (by simp) ?_ ?_
  · intro c hc
    rw [hT] at hc
    simp only [List.cons_append, List.head?_cons, Option.some.injEq] at hc
    subst hc; decide
  have hd : dropPrefix? ['#', '!'] (T "#!" ++ before ++ p ++ gap ++ a ++ after ++ rest) = some (before ++ (p ++ (gap ++ (a ++ (after ++ rest))))) :=
    dropPrefix?_eq_some.2 (by rw [hT]; simp)
  rw [hd, Option.bind_some]
  refine starG_longest before _ (fun c hc => reSpace_iff.2 (hb c hc)) ?_ ?_
  · intro c hc
    cases p with
    | nil => exact absurd rfl hp
    | cons x p =>
      simp only [List.cons_append, List.head?_cons, Option.some.injEq] at hc
      subst hc
      simpa using unbroken_iff.1 hup x (by simp)
  refine starG_longest p _ (unbroken_iff.1 hup) ?_ ?_
  · intro c hc
    cases gap with
    | nil =>
      have := hga.1 rfl
      subst this
      exact hend c hc
    | cons x gap =>
      simp only [List.cons_append, List.head?_cons, Option.some.injEq] at hc
      subst hc
      simp [blank_reSpace (isBlank_iff.2 (hg x (by simp)))]
  by_cases ha : a = []
  · -- no argument: the blanks that follow are given back to the end of the line
    have hgap := hga.2 ha
    subst ha hgap
    simp only [List.nil_append]
    obtain ⟨w, r, e, _, hw, hr⟩ := takeWhile_spec isBlank (after ++ rest)
    rw [e]
    refine starG_longest w r hw ?_ ?_
    · intro c hc
      rcases hr with rfl | ⟨x, t, rfl, hx⟩
      · simp at hc
      · simp only [List.head?_cons, Option.some.injEq] at hc
        rw [← hc]; exact hx
    refine starG_longest (p := fun c => !reSpace c) [] r (by simp) ?_ ?_
    · intro c hc
      -- what follows blanks of the line is a blank or the end
      have hall : ∀ x ∈ after, reSpace x = true := lineBlank_reSpace hla
      rcases List.append_eq_append_iff.1 e with ⟨y, h1, h2⟩ | ⟨y, h1, h2⟩
      · -- rest = y ++ r, w = after ++ y
        cases y with
        | nil =>
          simp only [List.nil_append] at h2
          subst h2
          rcases hre with rfl | ⟨more, rfl⟩
          · simp at hc
          · simp only [List.head?_cons, Option.some.injEq] at hc
            subst hc; decide
        | cons x y =>
          exfalso
          have hx := hw x (by rw [h1]; simp)
          rcases hre with rfl | ⟨more, rfl⟩
          · simp at h2
          · simp only [List.cons_append, List.cons.injEq] at h2
            rw [← h2.1] at hx
            exact absurd hx (by decide)
      · cases y with
        | nil =>
          simp only [List.nil_append] at h2
          subst h2
          rcases hre with rfl | ⟨more, rfl⟩
          · simp at hc
          · simp only [List.head?_cons, Option.some.injEq] at hc
            subst hc; decide
        | cons x y =>
          rw [h2] at hc
          simp only [List.cons_append, List.head?_cons, Option.some.injEq] at hc
          subst hc
          simp [hall x (by rw [h1]; simp)]
    -- some end of line is found
    have hr' : ∃ u v, r = u ++ v ∧ (∀ c ∈ u, reSpace c = true) ∧ atEnd v = true := by
      rcases List.append_eq_append_iff.1 e with ⟨y, h1, h2⟩ | ⟨y, h1, h2⟩
      · cases y with
        | nil => exact ⟨[], rest, by simpa using h2.symm, by simp, atEnd_iff.2 hre⟩
        | cons x y =>
          exfalso
          have hx := hw x (by rw [h1]; simp)
          rcases hre with rfl | ⟨more, rfl⟩
          · simp at h2
          · simp only [List.cons_append, List.cons.injEq] at h2
            rw [← h2.1] at hx
            exact absurd hx (by decide)
      · exact ⟨y, rest, h2, fun c hc => lineBlank_reSpace hla c (by rw [h1]; simp [hc]), atEnd_iff.2 hre⟩
    obtain ⟨u, v, rfl, hu, hv⟩ := hr'
    obtain ⟨y, hy⟩ := starG_exists (p := reSpace) u v (k := fun _ s => if atEnd s then sourcePart p [] s else none) hu (by rw [if_pos hv, sourcePart_eq])
    rw [hy]
    obtain ⟨w', r', e', hw', hk⟩ := starG_some hy
    split at hk
    · rw [sourcePart_eq] at hk
      rw [← hk]
      have : (after ++ rest).dropWhile reSpace = src := by
        rw [hrs, ← List.append_assoc, dropWhile_append_all, dropWhile_head]
        · intro c hc
          have := hsrc c hc
          rw [isGap_iff] at this
          simpa using this
        · intro c hc
          rcases List.mem_append.1 hc with h | h
          · exact lineBlank_reSpace hla c h
          · exact isGap_iff.1 (hbl c h)
      rw [e, e', dropWhile_append_all (fun c hc => blank_reSpace (hw c hc)), dropWhile_append_all hw'] at this
      rw [this]
    · cases hk
  · refine starG_longest gap _ (fun c hc => isBlank_iff.2 (hg c hc)) ?_ ?_
    · intro c hc
      cases a with
      | nil => exact absurd rfl ha
      | cons x a =>
        simp only [List.cons_append, List.head?_cons, Option.some.injEq] at hc
        subst hc
        have := unbroken_iff.1 hua x (by simp)
        cases hx : isBlank x with
        | false => rfl
        | true => rw [blank_reSpace hx] at this; simp at this
    refine starG_longest a _ (unbroken_iff.1 hua) hend ?_
    obtain ⟨y, hy⟩ := starG_exists (p := reSpace) after rest (k := fun _ s => if atEnd s then sourcePart p a s else none) (lineBlank_reSpace hla)
      (by rw [if_pos (atEnd_iff.2 hre), sourcePart_eq])
    rw [hy]
    obtain ⟨w', r', e', hw', hk⟩ := starG_some hy
    split at hk
    · rw [sourcePart_eq] at hk
      rw [← hk]
      have : (after ++ rest).dropWhile reSpace = src := by
        rw [hrs, ← List.append_assoc, dropWhile_append_all, dropWhile_head]
        · intro c hc
          have := hsrc c hc
          rw [isGap_iff] at this
          simpa using this
        · intro c hc
          rcases List.mem_append.1 hc with h | h
          · exact lineBlank_reSpace hla c h
          · exact isGap_iff.1 (hbl c h)
      rw [e', dropWhile_append_all hw'] at this
      rw [this]
    · cases hk

/-- Spaces before an end of line, cut at the first end of line. -/
theorem cut_line {u v : Text} (hu : ∀ c ∈ u, reSpace c = true) (hv : atEnd v = true) :
    ∃ after rest, u ++ v = after ++ rest ∧ LineBlank after ∧ (rest = [] ∨ ∃ more, rest = '\n' :: more) := by
  induction u with
  | nil => exact ⟨[], v, rfl, by simp [LineBlank], atEnd_iff.1 hv⟩
  | cons c u ih =>
    by_cases hc : c = '\n'
    · exact ⟨[], c :: u ++ v, rfl, by simp [LineBlank], .inr ⟨u ++ v, by rw [hc]; rfl⟩⟩
    · obtain ⟨after, rest, e, h1, h2⟩ := ih fun d hd => hu d (by simp [hd])
      refine ⟨c :: after, rest, by simp [e], ?_, h2⟩
      intro d hd
      rcases List.mem_cons.1 hd with rfl | hd
      · rcases reSpace_iff.1 (hu d (by simp)) with h | h | h | h | h
        · exact .inl h
        · exact .inr (.inl h)
        · exact .inr (.inr (.inl h))
        · exact .inr (.inr (.inr h))
        · exact absurd h hc
      · exact h1 d hd

theorem split_source (s : Text) : ∃ blanks source, s = blanks ++ source ∧ (∀ c ∈ blanks, IsGap c) ∧ (∀ c, source.head? = some c → ¬ IsGap c) := by
  obtain ⟨w, r, e, _, hw, hr⟩ := takeWhile_spec reSpace s
  refine ⟨w, r, e, fun c hc => isGap_iff.2 (hw c hc), ?_⟩
  intro c hc
  rw [isGap_iff]
  rcases hr with rfl | ⟨x, t, rfl, hx⟩
  · simp at hc
  · simp only [List.head?_cons, Option.some.injEq] at hc
    rw [← hc, hx]; simp

theorem scriptText_iff {s : Text} : ScriptText s ↔ ∃ p a src, ScriptLine s p a src := by
  constructor
  · rintro ⟨before, p, gap, a, after, rest, rfl, hb, hp, hup, hg, hua, hga, hla, hre⟩
    obtain ⟨blanks, src, rfl, h1, h2⟩ := split_source rest
    by_cases ha : a = []
    · subst ha
      refine ⟨p, [], src, before, [], gap ++ after, blanks ++ src, blanks, by simp, hb, hp, hup, by simp, hua, by simp, ?_, hre, rfl, h1, h2⟩
      intro c hc
      rcases List.mem_append.1 hc with h | h
      · rcases hg c h with h | h
        · exact .inl h
        · exact .inr (.inl h)
      · exact hla c h
    · exact ⟨p, a, src, before, gap, after, blanks ++ src, blanks, rfl, hb, hp, hup, hg, hua, ⟨hga, fun h => absurd h ha⟩, hla, hre, rfl, h1, h2⟩
  · rintro ⟨p, a, src, before, gap, after, rest, blanks, rfl, hb, hp, hup, hg, hua, hga, hla, hre, _⟩
    exact ⟨before, p, gap, a, after, rest, rfl, hb, hp, hup, hg, hua, hga.1, hla, hre⟩

/-- A header without program: there is none in the text. -/
theorem header_not {s : Text} {r : Text × Text × Text} (hs : ∀ c, s.head? = some c → reSpace c = false) (hn : ¬ ScriptText s) (h : header s sourcePart = some r) :
    ∃ blanks, s = T "#!" ++ blanks ++ r.2.2 ∧ (∀ c ∈ blanks, IsGap c) ∧ ('\n' ∈ blanks ∨ r.2.2 = []) ∧ r.1 = [] ∧ r.2.1 = [] := by
  have hT : T "#!" = ['#', '!'] := by decide
  unfold header at h
  obtain ⟨w0, s1, e0, hw0, h⟩ := starG_some h
  rw [Option.bind_eq_some_iff] at h
  obtain ⟨s2, hd, h⟩ := h
  rw [dropPrefix?_eq_some] at hd
  obtain ⟨b, s3, e1, hb, h⟩ := starG_some h
  obtain ⟨p, s4, e2, hp, h⟩ := starG_some h
  obtain ⟨g, s5, e3, hg, h⟩ := starG_some h
  obtain ⟨a, s6, e4, ha, h⟩ := starG_some h
  obtain ⟨u, v, e5, hu, h⟩ := starG_some h
  split at h
  · rename_i hv
    rw [sourcePart_eq, Option.some.injEq] at h
    have hw : w0 = [] := by
      cases w0 with
      | nil => rfl
      | cons c w0 =>
        have h1 := hw0 c (by simp)
        have h2 := hs c (by rw [e0]; rfl)
        rw [h1] at h2; cases h2
    subst hw
    have hb' : ∀ c ∈ b, IsGap c := fun c hc => isGap_iff.2 (hb c hc)
    have hg' : ∀ c ∈ g, c = ' ' ∨ c = '\t' := fun c hc => isBlank_iff.1 (hg c hc)
    have hgg : ∀ c ∈ g, IsGap c := fun c hc => isGap_iff.2 (blank_reSpace (hg c hc))
    have hsall : s = T "#!" ++ b ++ p ++ g ++ a ++ u ++ v := by
      rw [e0, hd, e1, e2, e3, e4, e5, hT]; simp
    by_cases hp0 : p = []
    · by_cases ha0 : a = []
      · subst hp0 ha0
        obtain ⟨bl, src, e6, hbl, hsrc⟩ := split_source v
        have hdw : v.dropWhile reSpace = src := by
          rw [e6, dropWhile_append_all (fun c hc => isGap_iff.1 (hbl c hc)), dropWhile_head]
          intro c hc
          have := hsrc c hc
          rw [isGap_iff] at this
          simpa using this
        rw [hdw] at h
        subst h
        refine ⟨b ++ g ++ u ++ bl, ?_, ?_, ?_, rfl, rfl⟩
        · rw [hsall, e6]; simp
        · intro c hc
          rcases List.mem_append.1 hc with hc | hc
          · rcases List.mem_append.1 hc with hc | hc
            · rcases List.mem_append.1 hc with hc | hc
              · exact hb' c hc
              · exact hgg c hc
            · exact isGap_iff.2 (hu c hc)
          · exact hbl c hc
        · rcases atEnd_iff.1 hv with h | ⟨more, h⟩
          · right
            rw [e6] at h
            simp only [List.append_eq_nil_iff] at h
            exact h.2
          · left
            cases bl with
            | nil =>
              rw [h] at e6
              simp only [List.nil_append] at e6
              exact absurd (show IsGap '\n' by simp [IsGap]) (hsrc '\n' (by simp [← e6]))
            | cons x bl =>
              rw [h] at e6
              simp only [List.cons_append, List.cons.injEq] at e6
              rw [← e6.1]; simp
      · exfalso
        subst hp0
        obtain ⟨after, rest, e6, hla, hre⟩ := cut_line hu hv
        refine hn ⟨b ++ g, a, [], [], after, rest, ?_, ?_, ha0, unbroken_iff.2 ha, by simp, by simp [Unbroken], by simp, hla, hre⟩
        · rw [hsall, List.append_assoc _ u v, e6]; simp
        · intro c hc
          rcases List.mem_append.1 hc with hc | hc
          · exact hb' c hc
          · exact hgg c hc
    · exfalso
      by_cases hg0 : g = []
      · subst hg0
        obtain ⟨after, rest, e6, hla, hre⟩ := cut_line hu hv
        refine hn ⟨b, p ++ a, [], [], after, rest, ?_, hb', by simp [hp0], unbroken_iff.2 ?_, by simp, by simp [Unbroken], by simp, hla, hre⟩
        · rw [hsall, List.append_assoc _ u v, e6]; simp
        · intro c hc
          rcases List.mem_append.1 hc with hc | hc
          · exact hp c hc
          · exact ha c hc
      · obtain ⟨after, rest, e6, hla, hre⟩ := cut_line hu hv
        refine hn ⟨b, p, g, a, after, rest, ?_, hb', hp0, unbroken_iff.2 hp, hg', unbroken_iff.2 ha, fun h => absurd h hg0, hla, hre⟩
        rw [hsall, List.append_assoc _ u v, e6]; simp
  · cases h

end Verif.Lemmas
