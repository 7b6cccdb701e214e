import Verif.Lemmas.Strings
/-! # Lemmas about wrapping and indentation -/

namespace Verif.Strings
open Verif Text Spec

theorem byteLen_pos {w : Text} (h : w ≠ []) : 0 < byteLen w := by
  cases w with
  | nil => exact absurd rfl h
  | cons c w => simp only [byteLen]; have := Char.utf8Size_pos c; omega

theorem join_snoc (sep : Text) (cur : List Text) (w : Text) (h : cur ≠ []) : join sep (cur ++ [w]) = join sep cur ++ sep ++ w := by
  induction cur with
  | nil => exact absurd rfl h
  | cons x cur ih =>
    by_cases hc : cur = []
    · subst hc; simp [join]
    · rw [List.cons_append, join_cons_of_ne _ _ (by simp), ih hc, join_cons_of_ne _ _ hc]; simp

theorem wrapLoop_words (width : Int) (ws : List Text) : ∀ (cur : List Text) (length : Nat),
    (wrapLoop width cur length ws).1.flatten ++ (wrapLoop width cur length ws).2 = cur ++ ws := by
  induction ws with
  | nil => intro cur length; simp [wrapLoop]
  | cons w ws ih =>
    intro cur length
    simp only [wrapLoop]
    split
    · rename_i h
      simp only [if_true, List.flatten_cons, List.append_assoc]
      rw [ih]; simp
    · rw [ih]; simp

/-- A chunk that respects the width, up to one. -/
def ChunkOk (width : Int) (ch : List Text) : Prop := 2 ≤ ch.length → (byteLen (join [' '] ch) : Int) ≤ width + 1

theorem wrapLoop_width (width : Int) (ws : List Text) (hw : ∀ w ∈ ws, IsWord w) : ∀ (cur : List Text) (length : Nat),
    (∀ w ∈ cur, IsWord w) → (cur ≠ [] → byteLen (join [' '] cur) ≤ length) → ChunkOk width cur →
    (∀ ch ∈ (wrapLoop width cur length ws).1, ChunkOk width ch) ∧ ChunkOk width (wrapLoop width cur length ws).2 := by
  induction ws with
  | nil => intro cur length _ _ h; exact ⟨by simp [wrapLoop], h⟩
  | cons w ws ih =>
    intro cur length hcw hlen hok
    have hww := hw w (by simp)
    have hws : ∀ w ∈ ws, IsWord w := fun x hx => hw x (List.mem_cons_of_mem _ hx)
    simp only [wrapLoop]
    split
    · rename_i h
      simp only [if_true, List.nil_append]
      obtain ⟨i1, i2⟩ := ih hws [w] (0 + byteLen w + 0) (by simpa using hww) (by intro _; simp [join]) (by intro h2; simp at h2)
      refine ⟨?_, i2⟩
      intro ch hch
      rcases List.mem_cons.1 hch with rfl | hch
      · exact hok
      · exact i1 ch hch
    · rename_i h
      simp only [Bool.not_eq_true] at h
      have hall : ∀ x ∈ cur ++ [w], IsWord x := by
        intro x hx
        rcases List.mem_append.1 hx with hx | hx
        · exact hcw x hx
        · simp at hx; subst hx; exact hww
      refine ih hws (cur ++ [w]) _ hall ?_ ?_
      · intro _
        by_cases hc : cur = []
        · subst hc; simp [join]
        · rw [join_snoc _ _ _ hc, byteLen_append, byteLen_append]
          have := hlen hc
          have h1 : byteLen [' '] = 1 := by decide
          simp only [hc]
          simp; omega
      · intro h2
        have hc : cur ≠ [] := by intro e; subst e; simp at h2
        have hl := hlen hc
        have hpos : 0 < byteLen (join [' '] cur) := by
          cases cur with
          | nil => exact absurd rfl hc
          | cons x cur =>
            have hx := byteLen_pos (hcw x (by simp)).1
            by_cases hc2 : cur = []
            · subst hc2; simpa [join] using hx
            · rw [join_cons_of_ne _ _ hc2, byteLen_append, byteLen_append]; omega
        have hnf : ((length + byteLen w : Nat) : Int) ≤ width := by
          simp only [Bool.and_eq_false_iff, decide_eq_false_iff_not] at h
          omega
        rw [join_snoc _ _ _ hc, byteLen_append, byteLen_append]
        have h1 : byteLen [' '] = 1 := by decide
        omega

theorem join_no_newline (ws : List Text) (h : ∀ w ∈ ws, IsWord w) : '\n' ∉ join [' '] ws := by
  induction ws with
  | nil => simp [join]
  | cons w ws ih =>
    have hw : '\n' ∉ w := by
      intro hm
      have := (h w (by simp)).2 _ hm
      exact absurd this (by decide)
    by_cases hc : ws = []
    · subst hc; simpa [join] using hw
    · rw [join_cons_of_ne _ _ hc]
      simp only [List.mem_append, not_or]
      exact ⟨⟨hw, by decide⟩, ih (fun x hx => h x (List.mem_cons_of_mem _ hx))⟩

/-- The chunks of a line. -/
def chunks (width : Int) (line : Text) : List (List Text) × List Text :=
  wrapLoop width [] (byteLen (line.takeWhile isSpace)) (fields line)

theorem wrapLine_eq (width : Int) (line : Text) (h : ¬ Blank line) :
    wrapLine width line = (chunks width line).1.map (join [' ']) ++ [line.takeWhile isSpace ++ join [' '] (chunks width line).2] := by
  unfold wrapLine chunks
  rw [if_neg, fields_trimRight]
  intro hd
  apply h
  have := List.takeWhile_append_dropWhile (p := isSpace) (l := line)
  rw [hd, List.append_nil] at this
  intro c hc
  rw [← this] at hc
  exact List.all_eq_true.1 (List.all_takeWhile (p := isSpace) (l := line)) c hc

theorem wrapLine_blank (width : Int) (line : Text) (h : Blank line) : wrapLine width line = [[]] := by
  unfold wrapLine
  rw [if_pos (dropWhile_all h)]

theorem chunks_words (width : Int) (line : Text) : (chunks width line).1.flatten ++ (chunks width line).2 = fields line := by
  unfold chunks; rw [wrapLoop_words]; rfl

theorem chunks_isWord (width : Int) (line : Text) :
    (∀ ch ∈ (chunks width line).1, ∀ w ∈ ch, IsWord w) ∧ ∀ w ∈ (chunks width line).2, IsWord w := by
  have h := chunks_words width line
  have hw := fields_words line
  rw [← h] at hw
  constructor
  · intro ch hch w hwm
    exact hw w (List.mem_append_left _ (List.mem_flatten.2 ⟨ch, hch, hwm⟩))
  · intro w hwm; exact hw w (List.mem_append_right _ hwm)

theorem takeWhile_blank (line : Text) : Blank (line.takeWhile isSpace) := fun c hc =>
  List.all_eq_true.1 (List.all_takeWhile (p := isSpace) (l := line)) c hc

theorem wrapLine_fields (width : Int) (line : Text) : ((wrapLine width line).map fields).flatten = fields line := by
  by_cases hb : Blank line
  · rw [wrapLine_blank width line hb, fields_blank line hb]; simp [fields_nil]
  · obtain ⟨h1, h2⟩ := chunks_isWord width line
    rw [wrapLine_eq width line hb, List.map_append, List.flatten_append, List.map_map]
    have e1 : (chunks width line).1.map (fields ∘ join [' ']) = (chunks width line).1 := by
      conv => rhs; rw [← List.map_id (chunks width line).1]
      refine List.map_congr_left ?_
      intro ch hch
      exact fields_join_words ' ' (by decide) ch (h1 ch hch)
    rw [e1]
    simp only [List.map_cons, List.map_nil, List.flatten_cons, List.flatten_nil, List.append_nil]
    rw [fields_blank_append _ _ (takeWhile_blank line), fields_join_words ' ' (by decide) _ h2]
    exact chunks_words width line

theorem wrapLine_no_newline (width : Int) (line : Text) (hl : '\n' ∉ line) : ∀ l ∈ wrapLine width line, '\n' ∉ l := by
  by_cases hb : Blank line
  · rw [wrapLine_blank width line hb]; intro l hl2; simp at hl2; subst hl2; simp
  · obtain ⟨h1, h2⟩ := chunks_isWord width line
    rw [wrapLine_eq width line hb]
    intro l hl2
    rcases List.mem_append.1 hl2 with h | h
    · obtain ⟨ch, hch, rfl⟩ := List.mem_map.1 h
      exact join_no_newline ch (h1 ch hch)
    · simp at h; subst h
      simp only [List.mem_append, not_or]
      refine ⟨fun hm => hl ?_, join_no_newline _ h2⟩
      exact (List.takeWhile_sublist _).mem hm

theorem wrapLine_ne_nil (width : Int) (line : Text) : wrapLine width line ≠ [] := by
  by_cases hb : Blank line
  · rw [wrapLine_blank width line hb]; simp
  · rw [wrapLine_eq width line hb]; simp

theorem wrap_lines (s : Text) (width : Int) : splitC '\n' (wrap s width) = ((splitC '\n' s).map (wrapLine width)).flatten := by
  unfold wrap
  refine splitC_join ?_ ?_
  · intro h
    cases hs : splitC '\n' s with
    | nil => exact splitC_ne_nil _ _ hs
    | cons l ls => rw [hs] at h; simp at h; exact wrapLine_ne_nil _ _ h.1
  · intro l hl
    obtain ⟨ls, hls, hl2⟩ := List.mem_flatten.1 hl
    obtain ⟨line, hline, rfl⟩ := List.mem_map.1 hls
    exact wrapLine_no_newline width line (splitC_no_sep _ _ _ hline) l hl2

theorem byteLen_dropWhile_le (p : Char → Bool) (s : Text) : byteLen (s.dropWhile p) ≤ byteLen s := by
  have := congrArg byteLen (List.takeWhile_append_dropWhile (p := p) (l := s))
  rw [byteLen_append] at this; omega

theorem dropWhile_blank_append (a b : Text) (h : Blank a) : (a ++ b).dropWhile isSpace = b.dropWhile isSpace := by
  induction a with
  | nil => rfl
  | cons c a ih =>
    rw [List.cons_append, List.dropWhile_cons, if_pos (h c (by simp))]
    exact ih (fun x hx => h x (List.mem_cons_of_mem _ hx))

theorem wrapLine_width (width : Int) (line l : Text) (hl : l ∈ wrapLine width line) (h2 : 2 ≤ (fields l).length) :
    (byteLen (trimLeftSpace l) : Int) ≤ width + 1 := by
  by_cases hb : Blank line
  · rw [wrapLine_blank width line hb] at hl; simp at hl; subst hl; simp [fields_nil] at h2
  · obtain ⟨hw1, hw2⟩ := chunks_isWord width line
    obtain ⟨h3, h4⟩ := wrapLoop_width width (fields line) (fields_words line) [] (byteLen (line.takeWhile isSpace))
      (by simp) (by simp) (by intro h; simp at h)
    rw [wrapLine_eq width line hb] at hl
    rcases List.mem_append.1 hl with h | h
    · obtain ⟨ch, hch, rfl⟩ := List.mem_map.1 h
      rw [fields_join_words ' ' (by decide) ch (hw1 ch hch)] at h2
      have := h3 ch hch h2
      have h5 := byteLen_dropWhile_le isSpace (join [' '] ch)
      unfold trimLeftSpace; omega
    · simp at h; subst h
      rw [fields_blank_append _ _ (takeWhile_blank line), fields_join_words ' ' (by decide) _ hw2] at h2
      have := h4 h2
      unfold trimLeftSpace
      rw [dropWhile_blank_append _ _ (takeWhile_blank line)]
      have h5 := byteLen_dropWhile_le isSpace (join [' '] (chunks width line).2)
      unfold chunks at *
      omega

/-! A line that fits is not broken. -/

theorem wrapLoop_fits (width : Int) (ws : List Text) : ∀ (cur : List Text) (length : Nat),
    ((length + byteLen (join [' '] ws) + (if cur = [] then 0 else 1) : Nat) : Int) ≤ width →
    wrapLoop width cur length ws = ([], cur ++ ws) := by
  induction ws with
  | nil => intro cur length _; simp [wrapLoop]
  | cons w ws ih =>
    intro cur length h
    have hb : byteLen w + (if ws = [] then 0 else 1 + byteLen (join [' '] ws)) ≤ byteLen (join [' '] (w :: ws)) := by
      by_cases hws : ws = []
      · subst hws; simp [join]
      · rw [join_cons_of_ne _ _ hws, byteLen_append, byteLen_append]
        have h1 : byteLen [' '] = 1 := by decide
        simp only [hws]; simp; omega
    have hf : (decide (length > 0) && decide (((length + byteLen w : Nat) : Int) > width)) = false := by
      simp only [Bool.and_eq_false_iff, decide_eq_false_iff_not]
      right; omega
    simp only [wrapLoop, hf]
    by_cases hws : ws = []
    · subst hws; simp [wrapLoop]
    · simp only [hws] at hb
      have := ih (cur ++ [w]) (length + byteLen w + (if cur = [] then 0 else 1)) (by
        have e : (cur ++ [w] = []) = False := by simp
        simp only [e, if_false] at *
        omega)
      simpa using this

theorem byteLen_fields_le (s : Text) : byteLen (join [' '] (fields s)) ≤ byteLen s := by
  have h1 : byteLen [' '] = 1 := by decide
  -- joining the pieces of the cut
  have hp : ∀ s : Text, byteLen (join [' '] (splitP isSpace s)) ≤ byteLen s := by
    intro s
    induction s with
    | nil => simp [splitP, join]
    | cons c s ih =>
      simp only [splitP]
      have hc := Char.utf8Size_pos c
      split
      · rw [join_cons_of_ne _ _ (splitP_ne_nil _ _), byteLen_append, byteLen_append]
        simp only [byteLen] at *
        omega
      · cases h : splitP isSpace s with
        | nil => exact absurd h (splitP_ne_nil _ _)
        | cons l ls =>
          rw [h] at ih
          by_cases hls : ls = []
          · subst hls
            simp only [join, byteLen] at *
            omega
          · rw [join_cons_of_ne _ _ hls, byteLen_append, byteLen_append] at *
            simp only [byteLen] at *
            omega
  have hf : ∀ (q : Text → Bool) (L : List Text), byteLen (join [' '] (L.filter q)) ≤ byteLen (join [' '] L) := by
    intro q L
    induction L with
    | nil => simp
    | cons x L ih =>
      by_cases hL : L = []
      · subst hL
        cases hx : q x <;> simp [hx, join, byteLen]
      · rw [join_cons_of_ne _ x hL, byteLen_append, byteLen_append]
        cases hx : q x with
        | false => rw [List.filter_cons_of_neg (by simp [hx])]; omega
        | true =>
          rw [List.filter_cons_of_pos hx]
          by_cases hfl : L.filter q = []
          · rw [hfl]; simp only [join]; omega
          · rw [join_cons_of_ne _ x hfl, byteLen_append, byteLen_append]; omega
  exact Nat.le_trans (hf _ _) (hp s)

theorem wrapLine_fits (width : Int) (line : Text) (h : (byteLen line : Int) ≤ width) : (wrapLine width line).length = 1 := by
  by_cases hb : Blank line
  · rw [wrapLine_blank width line hb]; rfl
  · rw [wrapLine_eq width line hb]
    have hsplit := List.takeWhile_append_dropWhile (p := isSpace) (l := line)
    have hf : fields line = fields (line.dropWhile isSpace) := by
      conv => lhs; rw [← hsplit]
      exact fields_blank_append _ _ (takeWhile_blank line)
    have hbl := congrArg byteLen hsplit
    rw [byteLen_append] at hbl
    have := byteLen_fields_le (line.dropWhile isSpace)
    have hc : chunks width line = ([], [] ++ fields line) := by
      unfold chunks
      refine wrapLoop_fits width _ [] _ ?_
      rw [hf]
      simp only [if_true]
      omega
    rw [hc]; rfl

/-! ## Indentation -/

theorem indent_eq (s i : Text) : indent s i = i ++ replaceAll ['\n'] ('\n' :: i) s := by
  unfold indent
  induction s with
  | nil => simp [splitC, join, replaceAll_nil]
  | cons c s ih =>
    simp only [splitC]
    split
    · rename_i hc; subst hc
      rw [List.map_cons, join_cons_of_ne _ _ (by simp [splitC_ne_nil]), ih]
      have := replaceAll_match (old := ['\n']) ('\n' :: i) s (by simp)
      simp only [List.singleton_append] at this
      rw [this]; simp
    · rename_i hc
      have hp : hasPrefix ['\n'] (c :: s) = false := by
        cases h : hasPrefix ['\n'] (c :: s) with
        | false => rfl
        | true =>
          obtain ⟨r, hr⟩ := hasPrefix_iff.1 h
          simp at hr; exact absurd hr.1.symm hc
      rw [replaceAll_skip hp]
      cases h : splitC '\n' s with
      | nil => exact absurd h (splitC_ne_nil _ _)
      | cons l ls =>
        rw [h] at ih
        simp only
        cases ls with
        | nil =>
          simp only [List.map_cons, List.map_nil, join] at *
          have := List.append_cancel_left ih
          rw [this]
        | cons l2 ls =>
          simp only [List.map_cons, join, List.append_assoc] at *
          have := List.append_cancel_left ih
          rw [← this]; simp

theorem trimSpace_blank {l : Text} : trimSpace l = [] ↔ Blank l := trimSpace_eq_nil

theorem take_leading (line : Text) : line.take (line.length - (trimLeftSpace line).length) = line.takeWhile isSpace := by
  unfold trimLeftSpace
  have h := List.takeWhile_append_dropWhile (p := isSpace) (l := line)
  have hl : line.length - (line.dropWhile isSpace).length = (line.takeWhile isSpace).length := by
    have := congrArg List.length h
    rw [List.length_append] at this; omega
  rw [hl]
  exact (List.prefix_iff_eq_take.1 (List.takeWhile_prefix isSpace)).symm

theorem trimPrefix_append (p s : Text) : trimPrefix p (p ++ s) = s := by
  unfold trimPrefix
  rw [dropPrefix?_eq_some.2 rfl]; rfl

theorem trimPrefix_of_not {p s : Text} (h : ¬ p <+: s) : trimPrefix p s = s := by
  unfold trimPrefix
  cases hd : dropPrefix? p s with
  | none => rfl
  | some r => exact absurd ⟨r, (dropPrefix?_eq_some.1 hd).symm⟩ h

theorem unIndentLoop_some (spaces : Text) (ls : List Text) :
    ((∀ l ∈ ls, ¬ Blank l → spaces <+: l) → unIndentLoop (some spaces) ls = some (ls.map (trimPrefix spaces))) ∧
    ((∃ l ∈ ls, ¬ Blank l ∧ ¬ spaces <+: l) → unIndentLoop (some spaces) ls = none) := by
  induction ls with
  | nil => exact ⟨fun _ => rfl, by rintro ⟨l, hl, _⟩; simp at hl⟩
  | cons x ls ih =>
    have hcond : (!hasPrefix spaces x && decide (trimSpace x ≠ [])) = true ↔ ¬ Blank x ∧ ¬ spaces <+: x := by
      rw [Bool.and_eq_true, decide_eq_true_eq, Bool.not_eq_true', ← Bool.not_eq_true, hasPrefix_iff]
      rw [show (trimSpace x ≠ []) ↔ ¬ Blank x from not_congr trimSpace_blank]
      exact And.comm
    constructor
    · intro h
      simp only [unIndentLoop]
      rw [if_neg, ih.1 (fun l hl => h l (List.mem_cons_of_mem _ hl))]
      · rfl
      · rw [hcond]; rintro ⟨h1, h2⟩; exact h2 (h x (by simp) h1)
    · rintro ⟨l, hl, h1, h2⟩
      simp only [unIndentLoop]
      split
      · rfl
      · rename_i hc
        rw [hcond] at hc
        rcases List.mem_cons.1 hl with rfl | hl
        · exact absurd ⟨h1, h2⟩ hc
        · rw [ih.2 ⟨l, hl, h1, h2⟩]; rfl

theorem unIndentLoop_none (pre : List Text) (hpre : ∀ l ∈ pre, Blank l) (ls : List Text) :
    unIndentLoop none (pre ++ ls) = (unIndentLoop none ls).map (pre ++ ·) := by
  induction pre with
  | nil => simp
  | cons x pre ih =>
    simp only [List.cons_append, unIndentLoop]
    rw [if_pos (trimSpace_blank.2 (hpre x (by simp))), ih (fun l hl => hpre l (List.mem_cons_of_mem _ hl))]
    cases unIndentLoop none ls <;> simp

theorem unIndentLoop_first (first : Text) (rest : List Text) (h : ¬ Blank first) :
    unIndentLoop none (first :: rest) =
      (unIndentLoop (some (first.takeWhile isSpace)) rest).map (first.dropWhile isSpace :: ·) := by
  have hp : first.takeWhile isSpace <+: first := List.takeWhile_prefix _
  simp only [unIndentLoop, take_leading]
  rw [if_neg (fun e => h (trimSpace_blank.1 e)), if_neg]
  · congr 2
    have := trimPrefix_append (first.takeWhile isSpace) (first.dropWhile isSpace)
    rw [List.takeWhile_append_dropWhile] at this
    rw [this]
  · rw [hasPrefix_iff.2 hp]; simp

/-- Lines: all blank, or blank lines followed by a first line that is not blank. -/
theorem blank_split (ls : List Text) : (∀ l ∈ ls, Blank l) ∨
    ∃ pre first rest, ls = pre ++ first :: rest ∧ (∀ l ∈ pre, Blank l) ∧ ¬ Blank first := by
  induction ls with
  | nil => left; simp
  | cons x ls ih =>
    by_cases hx : Blank x
    · rcases ih with h | ⟨pre, first, rest, rfl, h1, h2⟩
      · left
        intro l hl
        rcases List.mem_cons.1 hl with rfl | hl
        · exact hx
        · exact h l hl
      · right
        refine ⟨x :: pre, first, rest, rfl, ?_, h2⟩
        intro l hl
        rcases List.mem_cons.1 hl with rfl | hl
        · exact hx
        · exact h1 l hl
    · right; exact ⟨[], x, ls, rfl, by simp, hx⟩

end Verif.Strings
