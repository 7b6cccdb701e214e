import Verif.Lemmas.Wrap
/-!
# C20 to C26: string functions
-/

namespace Verif
open Strings Spec Text

/-! ## C20 -/

/-- C20. The words are the same, in the same order, for every text and every width. -/
theorem C20_words (s : Text) (width : Int) : fields (wrap s width) = fields s := by
  have h1 : fields s = ((splitC '\n' s).map fields).flatten := by
    conv => lhs; rw [← join_splitC '\n' s]
    exact fields_join '\n' (by decide) _
  have h2 : ∀ L : List Text, (((L.map (wrapLine width)).flatten).map fields).flatten = (L.map fields).flatten := by
    intro L
    induction L with
    | nil => rfl
    | cons x L ih =>
      simp only [List.map_cons, List.flatten_cons, List.map_append, List.flatten_append]
      rw [ih, wrapLine_fields]
  unfold wrap
  rw [fields_join '\n' (by decide), h1, h2]

/-- C20 (violated). A produced line with several words can be longer than the width: the space before the last word is
not counted. -/
theorem C20_width_violated : ∃ s width, ∃ l ∈ splitC '\n' (wrap s width), 2 ≤ (fields l).length ∧ (byteLen l : Int) > width :=
  ⟨T "a b", 2, T "a b", by decide, by decide, by decide⟩

/-- C20 (violated). The indentation is put in front of the last produced line, where it was not counted. -/
theorem C20_indent_violated : wrap (T "    a b c") 5 = T "a\n    b c" := by decide

/-- C20, partial. Missing: the width itself. The lines of several words are at most one byte too long, not counting the
indentation. -/
theorem C20_width_partial (s : Text) (width : Int) : ∀ l ∈ splitC '\n' (wrap s width), 2 ≤ (fields l).length →
    (byteLen (trimLeftSpace l) : Int) ≤ width + 1 := by
  intro l hl h2
  rw [wrap_lines] at hl
  obtain ⟨ls, hls, hl2⟩ := List.mem_flatten.1 hl
  obtain ⟨line, _, rfl⟩ := List.mem_map.1 hls
  exact wrapLine_width width line l hl2 h2

/-- C20. Lines that fit are not broken. -/
theorem C20_fits (s : Text) (width : Int) (h : ∀ l ∈ splitC '\n' s, (byteLen l : Int) ≤ width) :
    (splitC '\n' (wrap s width)).length = (splitC '\n' s).length := by
  rw [wrap_lines]
  generalize splitC '\n' s = L at h
  induction L with
  | nil => rfl
  | cons x L ih =>
    simp only [List.map_cons, List.flatten_cons, List.length_append, List.length_cons]
    rw [ih (fun l hl => h l (List.mem_cons_of_mem _ hl)), wrapLine_fits width x (h x (by simp))]
    omega

example : wrap (T "  one two three four\n\nfive") 9 = T "one two\n  three four\n\nfive" := by decide

/-! ## C21 -/

/-- C21. A longer text is returned unchanged, for negative widths too. -/
theorem C21_longer (s : Text) (width : Int) (h : width < s.length) : center s width = s := by
  unfold center; rw [if_pos h]

/-- C21 (violated). For an enormous width the padding is an error text of the formatting library. -/
theorem C21_violated : ∃ s width, (s.length : Int) ≤ width ∧ ((center s width).length : Int) ≠ width := by
  refine ⟨[], 3000000, by decide, ?_⟩
  unfold center starPad
  simp
  decide

/-- C21, partial. Missing: more than two million columns of padding. The result has exactly the width, contains the text, and the
paddings differ by at most one, with the extra space on the right. -/
theorem C21_center_partial (s : Text) (width : Int) (h : (s.length : Int) ≤ width) (hm : width - s.length ≤ 2000000) :
    ∃ l r, center s width = List.replicate l ' ' ++ s ++ List.replicate r ' ' ∧ ((center s width).length : Int) = width ∧
      (r = l ∨ r = l + 1) := by
  have e : center s width = List.replicate ((width.toNat - s.length) / 2) ' ' ++ s ++
      List.replicate (width.toNat - (width.toNat - s.length) / 2 - s.length) ' ' := by
    unfold center starPad
    rw [if_neg (by omega)]
    simp only
    rw [if_neg (by omega), if_neg (by omega)]
  refine ⟨_, _, e, ?_, ?_⟩
  · rw [e]; simp; omega
  · omega

example : center (T "abc") 8 = T "  abc   " := by decide

/-! ## C22 -/

/-- C22. Every line gets the prefix, and nothing else changes. -/
theorem C22_indent_lines (s i : Text) (hi : '\n' ∉ i) : splitC '\n' (indent s i) = (splitC '\n' s).map (i ++ ·) := by
  unfold indent
  refine splitC_join (by simp [splitC_ne_nil]) ?_
  intro l hl
  obtain ⟨x, hx, rfl⟩ := List.mem_map.1 hl
  simp only [List.mem_append, not_or]
  exact ⟨hi, splitC_no_sep _ _ _ hx⟩

/-- C22. For any indentation text: it is put at the beginning and after each end of line. -/
theorem C22_indent (s i : Text) : indent s i = i ++ replaceAll (T "\n") ('\n' :: i) s := indent_eq s i

/-- C22. What `UnIndent` does: nothing for a single line or for blank lines; otherwise the prefix is the leading white
space of the first line that is not blank, and it is removed if all the following lines that are not blank have it. The
blank lines lose the prefix if they have it, except those before that first line. -/
theorem C22_unindent (s : Text) :
    ((splitC '\n' s).length = 1 → unIndent s = s) ∧
    ((∀ l ∈ splitC '\n' s, Blank l) → unIndent s = s) ∧
    (∀ pre first rest spaces body, splitC '\n' s = pre ++ first :: rest → 1 < (splitC '\n' s).length →
      (∀ l ∈ pre, Blank l) → first = spaces ++ body → Blank spaces → (∃ c b, body = c :: b ∧ isSpace c = false) →
      ((∃ l ∈ rest, ¬ Blank l ∧ ¬ spaces <+: l) → unIndent s = s) ∧
      ((∀ l ∈ rest, ¬ Blank l → spaces <+: l) → splitC '\n' (unIndent s) = pre ++ body :: rest.map (trimPrefix spaces))) := by
  refine ⟨?_, ?_, ?_⟩
  · intro h; unfold unIndent; simp [h]
  · intro h
    unfold unIndent
    simp only
    split
    · rfl
    · have := unIndentLoop_none (splitC '\n' s) h []
      rw [List.append_nil] at this
      rw [this]
      simp only [unIndentLoop, Option.map_some, List.append_nil]
      exact join_splitC _ _
  · intro pre first rest spaces body hs hlen hpre hfirst hsp hbody
    obtain ⟨c, b, rfl, hc⟩ := hbody
    have htw : first.takeWhile isSpace = spaces := by
      rw [hfirst, List.takeWhile_append_of_pos hsp, List.takeWhile_cons]; simp [hc]
    have hdw : first.dropWhile isSpace = c :: b := by
      rw [hfirst, dropWhile_blank_append _ _ hsp, List.dropWhile_cons]; simp [hc]
    have hnb : ¬ Blank first := by
      intro hb
      have := hb c (by rw [hfirst]; simp)
      rw [hc] at this; cases this
    have hloop : unIndentLoop none (splitC '\n' s) =
        ((unIndentLoop (some spaces) rest).map ((c :: b) :: ·)).map (pre ++ ·) := by
      rw [hs, unIndentLoop_none pre hpre, unIndentLoop_first first rest hnb, htw, hdw]
    have hlen' : ¬ (splitC '\n' s).length ≤ 1 := by omega
    constructor
    · intro hbad
      unfold unIndent
      simp only
      rw [if_neg hlen', hloop, (unIndentLoop_some spaces rest).2 hbad]
      rfl
    · intro hgood
      have hval : unIndent s = join ['\n'] (pre ++ (c :: b) :: rest.map (trimPrefix spaces)) := by
        unfold unIndent
        simp only
        rw [if_neg hlen', hloop, (unIndentLoop_some spaces rest).1 hgood]
        rfl
      rw [hval]
      refine splitC_join (by simp) ?_
      have hno : ∀ l ∈ pre ++ first :: rest, '\n' ∉ l := by
        intro l hl; rw [← hs] at hl; exact splitC_no_sep _ _ _ hl
      intro l hl
      rcases List.mem_append.1 hl with hl | hl
      · exact hno l (List.mem_append_left _ hl)
      · rcases List.mem_cons.1 hl with rfl | hl
        · have := hno first (by simp)
          rw [hfirst] at this
          intro hm; exact this (List.mem_append_right _ hm)
        · obtain ⟨x, hx, rfl⟩ := List.mem_map.1 hl
          have hxn := hno x (by simp [hx])
          by_cases hp : spaces <+: x
          · obtain ⟨y, rfl⟩ := hp
            rw [trimPrefix_append]
            intro hm; exact hxn (List.mem_append_right _ hm)
          · rw [trimPrefix_of_not hp]; exact hxn

/-- The two cases of C22_unindent after the first are exhaustive. -/
theorem C22_unindent_cases (s : Text) : (∀ l ∈ splitC '\n' s, Blank l) ∨
    ∃ pre first rest spaces body, splitC '\n' s = pre ++ first :: rest ∧ (∀ l ∈ pre, Blank l) ∧ first = spaces ++ body ∧
      Blank spaces ∧ (∃ c b, body = c :: b ∧ isSpace c = false) := by
  rcases blank_split (splitC '\n' s) with h | ⟨pre, first, rest, h1, h2, h3⟩
  · exact Or.inl h
  · refine Or.inr ⟨pre, first, rest, first.takeWhile isSpace, first.dropWhile isSpace, h1, h2,
      List.takeWhile_append_dropWhile.symm, takeWhile_blank first, ?_⟩
    cases h : first.dropWhile isSpace with
    | nil =>
      exfalso; apply h3
      have := List.takeWhile_append_dropWhile (p := isSpace) (l := first)
      rw [h, List.append_nil] at this
      rw [← this]; exact takeWhile_blank first
    | cons c b =>
      refine ⟨c, b, rfl, ?_⟩
      have := List.head?_dropWhile_not (p := isSpace) first
      rw [h] at this
      simpa using this

/-- C22 (violated). A blank line before the first text is not unindented, so that `UnIndent` does not undo `Indent`. -/
theorem C22_undo_violated : unIndent (indent (T "\na") (T "  ")) ≠ T "\na" := by decide

/-- C22, partial. Missing: texts with blank lines first. `UnIndent` undoes `Indent` with white space for a text of several lines
whose first line starts with a character that is not white space. -/
theorem C22_undo_partial (s i : Text) (hi : Blank i) (hn : '\n' ∉ i) (first : Text) (rest : List Text)
    (hs : splitC '\n' s = first :: rest) (hr : rest ≠ []) (hf : ∃ c b, first = c :: b ∧ isSpace c = false) :
    unIndent (indent s i) = s := by
  have hl := C22_indent_lines s i hn
  have h := (C22_unindent (indent s i)).2.2 [] (i ++ first) (rest.map (i ++ ·)) i first (by rw [hl, hs]; rfl)
    (by rw [hl, hs]; cases rest with | nil => exact absurd rfl hr | cons => simp) (by simp) rfl hi hf
  have h2 := h.2 (by
    intro l hl2 _
    obtain ⟨x, _, rfl⟩ := List.mem_map.1 hl2
    exact ⟨x, rfl⟩)
  rw [← join_splitC '\n' (unIndent (indent s i)), h2, ← join_splitC '\n' s, hs, List.map_map]
  congr 1
  rw [List.nil_append]
  congr 1
  conv => rhs; rw [← List.map_id rest]
  refine List.map_congr_left ?_
  intro x _
  simp [trimPrefix_append]

example : unIndent (T "  a\n    b\n\n  c") = T "a\n  b\n\nc" ∧ unIndent (T "  a\n b") = T "  a\n b" := by decide

/-! ## C23 -/

/-- C23. The positions are the greedy leftmost ones, for every text and non-empty substring. -/
theorem C23_greedy (s sub : Text) (h : sub ≠ []) :
    Greedy sub s 0 (indexAll s sub) ∧ ∀ ps, Greedy sub s 0 ps → ps = indexAll s sub :=
  ⟨indexAll_greedy s sub h, fun _ hp => greedy_unique hp (indexAll_greedy s sub h)⟩

/-- C23. Each position is an occurrence; they increase and do not overlap; every occurrence meets one of them. -/
theorem C23_positions (s sub : Text) (h : sub ≠ []) :
    (∀ p ∈ indexAll s sub, OccursAt sub s p) ∧
    (indexAll s sub).Pairwise (fun a b => a + sub.length ≤ b) ∧
    (∀ i, OccursAt sub s i → ∃ p ∈ indexAll s sub, p ≤ i ∧ i < p + sub.length) := by
  have hg := indexAll_greedy s sub h
  refine ⟨fun p hp => (greedy_mem hg p hp).1, greedy_sorted hg, ?_⟩
  intro i ho
  obtain ⟨p, hp, hp2⟩ := greedy_complete hg i (by omega) ho
  refine ⟨p, hp, ?_⟩
  have := List.length_pos_iff.2 h
  omega

/-- C23. Replacing the listed occurrences is `strings.ReplaceAll`. -/
theorem C23_replace (s sub new : Text) (h : sub ≠ []) :
    join new (between s sub.length 0 (indexAll s sub)) = replaceAll sub new s := by
  have := join_between_greedy new h (by omega) (indexAll_greedy s sub h)
  simpa using this

/-- C23. An empty substring is never found. -/
theorem C23_empty (s : Text) : indexAll s [] = [] := by simp [indexAll]

example : indexAll (T "aaaabaa") (T "aa") = [0, 2, 5] := by decide

/-! ## C24 -/

/-- C24. A position out of the text. -/
theorem C24_out_of_range (s accept : Text) (pos : Int) (h : pos < 0 ∨ (s.length : Int) ≤ pos) :
    wordAt s pos accept = some ([], -1) := by
  unfold wordAt; rw [if_pos h]

/-- C24. The characters of ASCII that separate words, with those that are accepted. -/
theorem C24_ascii (accept : Text) (c : Char) (hc : c.toNat < 128) :
    isBreak accept c = true ↔ asciiSeparator c = true ∧ (c ∈ accept → c = ' ' ∨ 9 ≤ c.toNat ∧ c.toNat ≤ 13) := by
  have key : ∀ n : Fin 128, isSpace (Char.ofNat n) = decide ((Char.ofNat n) = ' ' ∨ 9 ≤ (Char.ofNat n).toNat ∧ (Char.ofNat n).toNat ≤ 13) ∧
      (isSpace (Char.ofNat n) || isPunct (Char.ofNat n)) = asciiSeparator (Char.ofNat n) := by decide +kernel
  obtain ⟨h1, h2⟩ := key ⟨c.toNat, hc⟩
  simp only [Char.ofNat_toNat] at h1 h2
  rw [← h2]
  unfold isBreak
  by_cases hs : isSpace c = true
  · have := of_decide_eq_true (h1.symm.trans hs)
    simp [hs, this]
  · have hs' := Bool.eq_false_iff.mpr hs
    have := of_decide_eq_false (h1.symm.trans hs')
    simp [hs', this]

/-- C24. A position on a separator. -/
theorem C24_separator (s accept : Text) (pos : Nat) (c : Char) (h : s[pos]? = some c) (hb : isBreak accept c = true) :
    wordAt s pos accept = some ([], (pos : Int)) := by
  have hlt : pos < s.length := by
    refine Classical.byContradiction fun hge => ?_
    rw [List.getElem?_eq_none (by omega)] at h; cases h
  have hg : s.getD pos ' ' = c := by rw [List.getD_eq_getElem?_getD, h]; rfl
  have hbeg : wordBegin (isBreak accept) s pos = (pos : Int) := by
    cases pos with
    | zero => simp only [wordBegin, hg, hb]; rfl
    | succ n => simp only [wordBegin, hg, hb]; rfl
  have hend : wordEnd (isBreak accept) s pos = pos := by
    unfold wordEnd
    have hd : s.drop pos = s[pos] :: s.drop (pos + 1) := List.drop_eq_getElem_cons hlt
    have : s[pos] = c := by
      rw [List.getElem?_eq_getElem hlt] at h
      simpa using h
    rw [hd, List.takeWhile_cons, this]
    simp [hb]
  unfold wordAt
  rw [if_neg (by omega)]
  simp only [Int.toNat_natCast, hbeg, hend]
  rw [if_neg (by simp), goSlice_some (by omega) (by omega)]
  simp

/-- C24. Elsewhere the result is the maximal run of bytes that are not separators around the position, and its position;
that run is unique. -/
theorem C24_word (s accept : Text) (pos : Nat) (c : Char) (h : s[pos]? = some c) (hb : isBreak accept c = false) :
    ∃ (w : Text) (b : Nat), wordAt s pos accept = some (w, (b : Int)) ∧ WordAround (isBreak accept) s pos w b ∧
      ∀ w' b', WordAround (isBreak accept) s pos w' b' → w' = w ∧ b' = b := by
  have hlt : pos < s.length := by
    refine Classical.byContradiction fun hge => ?_
    rw [List.getElem?_eq_none (by omega)] at h; cases h
  obtain ⟨w, b, h1, h2⟩ := wordAt_around s pos accept hlt (by rw [List.getD_eq_getElem?_getD, h]; exact hb)
  exact ⟨w, b, h1, h2, fun w' b' h' => wordAround_unique h' h2⟩

/-- C24 (violated). The separators are looked for among the bytes, not the characters: the second byte of `à` is taken
for a no-break space, and the word found in `à` is not even valid text. -/
theorem C24_bytes_violated : wordAt (utf8Bytes (T "à")) 0 [] = some ([Char.ofNat 0xC3], 0) ∧
    isBreak [] 'à' = false ∧ utf8Bytes (T "à") = [Char.ofNat 0xC3, Char.ofNat 0xA0] := by decide

/-- C24, partial. Missing: texts with characters that have separator bytes in their UTF-8 form. For the other texts (the ASCII
ones in particular), the result is the UTF-8 form of the maximal run of characters that are not separators. -/
theorem C24_characters_partial (pre w post accept : Text) (pos : Nat)
    (hsep : ∀ c ∈ pre ++ w ++ post, isBreak accept c = true → utf8Bytes [c] = [c])
    (hword : ∀ c ∈ pre ++ w ++ post, isBreak accept c = false → ∀ b ∈ utf8Bytes [c], isBreak accept b = false)
    (hw : ∀ c ∈ w, isBreak accept c = false)
    (hl : ∀ p c, pre = p ++ [c] → isBreak accept c = true) (hr : ∀ c p, post = c :: p → isBreak accept c = true)
    (h1 : (utf8Bytes pre).length ≤ pos) (h2 : pos < (utf8Bytes pre).length + (utf8Bytes w).length) :
    wordAt (utf8Bytes (pre ++ w ++ post)) pos accept = some (utf8Bytes w, ((utf8Bytes pre).length : Int)) := by
  have happ : ∀ a b : Text, utf8Bytes (a ++ b) = utf8Bytes a ++ utf8Bytes b := by
    intro a b; simp [utf8Bytes]
  have hcons : ∀ (c : Char) (b : Text), utf8Bytes (c :: b) = utf8Bytes [c] ++ utf8Bytes b := by
    intro c b; exact happ [c] b
  have hwb : ∀ x ∈ utf8Bytes w, isBreak accept x = false := by
    intro x hx
    unfold utf8Bytes at hx
    obtain ⟨l, hl1, hl2⟩ := List.mem_flatten.1 hx
    obtain ⟨c, hc, rfl⟩ := List.mem_map.1 hl1
    refine hword c (by simp [hc]) (hw c hc) x ?_
    simpa [utf8Bytes] using hl2
  have hwa : WordAround (isBreak accept) (utf8Bytes (pre ++ w ++ post)) pos (utf8Bytes w) (utf8Bytes pre).length := by
    refine ⟨utf8Bytes pre, utf8Bytes post, by rw [happ, happ], rfl, h1, h2, hwb, ?_, ?_⟩
    · intro p c he
      cases hp : pre.reverse with
      | nil =>
        have : pre = [] := by simpa using hp
        subst this
        simp [utf8Bytes] at he
      | cons d q =>
        have hpd : pre = q.reverse ++ [d] := by
          have := congrArg List.reverse hp; simpa using this
        have hd := hl _ _ hpd
        have hb := hsep d (by rw [hpd]; simp) hd
        rw [hpd, happ, hb] at he
        have := List.append_inj_right' he rfl
        simp at this; rw [← this]; exact hd
    · intro c p he
      cases post with
      | nil => simp [utf8Bytes] at he
      | cons d q =>
        have hd := hr d q rfl
        have hb := hsep d (by simp) hd
        rw [hcons, hb] at he
        simp at he; rw [← he.1]; exact hd
  have hlt : pos < (utf8Bytes (pre ++ w ++ post)).length := by
    rw [happ, happ]; simp only [List.length_append]; omega
  have hget : ∃ c, (utf8Bytes (pre ++ w ++ post))[pos]? = some c ∧ isBreak accept c = false := by
    have hi : pos - (utf8Bytes pre).length < (utf8Bytes w).length := by omega
    refine ⟨(utf8Bytes w)[pos - (utf8Bytes pre).length], ?_, hwb _ (List.getElem_mem hi)⟩
    rw [happ, happ, List.append_assoc, List.getElem?_append_right h1, List.getElem?_append_left hi, List.getElem?_eq_getElem hi]
  obtain ⟨c, hc1, hc2⟩ := hget
  obtain ⟨w', b', h3, _, h5⟩ := C24_word _ accept pos c hc1 hc2
  obtain ⟨rfl, rfl⟩ := h5 _ _ hwa
  exact h3

example : wordAt (utf8Bytes (T "a.é-b c")) 3 (T "-") = some (utf8Bytes (T "é-b"), 2) ∧
    utf8Bytes (T "a.é-b c") = T "a." ++ utf8Bytes (T "é") ++ T "-b c" := by decide

/-! ## C25 -/

/-- C25. No input makes the function fail; the result is the empty context at -1, or a substring at the reported
position, which is not after the requested one, made of the left delimiter, a text, and the right delimiter. -/
theorem C25_delimited (s left right : Text) (pos : Int) : ∃ r b, context s pos left right = some (r, b) ∧
    ((r = [] ∧ b = -1) ∨ ∃ pre mid post : Text, r = left ++ mid ++ right ∧ s = pre ++ r ++ post ∧ b = pre.length ∧ b ≤ pos) := by
  obtain ⟨r, b, h1, h2⟩ := context_delimited s left right pos
  refine ⟨r, b, h1, ?_⟩
  rcases h2 with h2 | ⟨n, rfl, h3, pre, mid, post, h4, h5, h6⟩
  · exact Or.inl h2
  · exact Or.inr ⟨pre, mid, post, h4, h5, by omega, h3⟩

/-- C25. For single-character delimiters, when no closing delimiter lies between the last opening one and the position, the
context ends with the closing delimiter that matches that opening one; there is none only if that delimiter is never
closed. -/
theorem C25_match (a b : Char) (hab : a ≠ b) (x m₁ y : Text) (c : Char) (ha : a ∉ m₁) (hb : b ∉ m₁) :
    context (x ++ a :: (m₁ ++ c :: y)) ((x.length + 1 + m₁.length : Nat) : Int) [a] [b] =
      match matchClose a b 0 0 (m₁ ++ c :: y) with
      | none => some ([], -1)
      | some r => some (a :: ((m₁ ++ c :: y).take (r + 1)), (x.length : Int)) :=
  context_match a b hab x m₁ y c ha hb

/-- C25. Without opening delimiter before the position, or without closing delimiter after it, there is no context. -/
theorem C25_none (s left right : Text) (pos : Nat) (hp : pos < s.length) (hr : right ≠ [])
    (h : (∀ i, i + left.length ≤ pos → ¬ OccursAt left s i) ∨ (∀ i, pos ≤ i → ¬ OccursAt right s i)) :
    context s pos left right = some ([], -1) := by
  rcases context_cases s left right pos hp with ⟨h1, _⟩ | ⟨b, h1, h2, _, h3⟩
  · exact h1
  · rcases h with h | h
    · exact absurd h1 (h b h2)
    · rcases h3 with ⟨h3, _⟩ | ⟨_, h3, _⟩ | ⟨e, _, he, he2, _⟩
      · exact absurd h3 hr
      · exact h3
      · exact absurd he (h e he2)

/-- C25. Without other opening delimiter before the next closing one, the context goes from the last opening delimiter
before the position to the first closing one after it. -/
theorem C25_simple (s left right : Text) (pos b e : Nat) (hp : pos < s.length) (hl : left ≠ []) (hr : right ≠ [])
    (hb : OccursAt left s b) (hb2 : b + left.length ≤ pos) (hb3 : ∀ i, b < i → i + left.length ≤ e → ¬ OccursAt left s i)
    (he : OccursAt right s e) (he2 : pos ≤ e) (he3 : ∀ i, pos ≤ i → i < e → ¬ OccursAt right s i) :
    context s pos left right = some ((s.drop b).take (e + right.length - b), (b : Int)) := by
  rcases context_cases s left right pos hp with ⟨_, _, h1⟩ | ⟨b', h1, h2, h3, h4⟩
  · exact absurd hb (h1 b hb2)
  · have hbb : b' = b := by
      rcases Nat.lt_trichotomy b' b with h | h | h
      · exact absurd hb (h3 hl b h hb2)
      · exact h
      · exact absurd h1 (hb3 b' h (by omega))
    subst hbb
    rcases h4 with ⟨h4, _⟩ | ⟨_, _, h4⟩ | ⟨e', _, g1, g2, g3, g4⟩
    · exact absurd h4 hr
    · exact absurd he (h4 e he2)
    · have hee : e' = e := by
        rcases Nat.lt_trichotomy e' e with h | h | h
        · exact absurd g1 (he3 e' g2 h)
        · exact h
        · exact absurd he (g3 e he2 h)
      subst hee
      rcases g4 with ⟨_, g4⟩ | ⟨_, ⟨i, h5, h6, h7⟩, _⟩
      · obtain ⟨r, h5, h6, _⟩ := slice_delim hb he (by omega)
        rw [g4, h5, h6]; rfl
      · exact absurd h7 (hb3 i h5 h6)

/-- The context does not always hold the requested position ... -/
theorem C25_position_not_inside : context (T "(a) x (b)") 4 (T "(") (T ")") = some (T "(a)", 0) := by decide

/-- ... and is not always balanced: after an inner pair, the opening delimiter of that pair is used. -/
theorem C25_not_balanced : context (T "(a (b) c)") 7 (T "(") (T ")") = some (T "(b) c)", 3) := by decide

example : context (T "f(a, (b), c)") 2 (T "(") (T ")") = some (T "(a, (b), c)", 1) := by decide

/-! ## C26 -/

/-- C26. Joining the lines gives the text without its final newline. -/
theorem C26_join_split (s : Text) : joinLines (splitLines s) = trimSuffix (T "\n") s := join_splitC _ _

/-- C26. Lines without newline, the last one not empty, are found back. -/
theorem C26_split_join (ls : List Text) (hn : ∀ l ∈ ls, '\n' ∉ l) (hne : ls ≠ []) (hlast : ls.getLast hne ≠ []) :
    splitLines (joinLines ls) = ls := by
  unfold splitLines joinLines
  rw [trimSuffix_of_not, splitC_join hne hn]
  rintro ⟨t, ht⟩
  have hl : ls = ls.dropLast ++ [ls.getLast hne] := (List.dropLast_concat_getLast hne).symm
  obtain ⟨p, c, hpc⟩ : ∃ p c, ls.getLast hne = p ++ [c] :=
    ⟨(ls.getLast hne).dropLast, (ls.getLast hne).getLast hlast, (List.dropLast_concat_getLast hlast).symm⟩
  have hc : c ≠ '\n' := by
    rintro rfl
    exact hn (ls.getLast hne) (List.getLast_mem hne) (by rw [hpc]; simp)
  have hend : ∃ q, join ['\n'] ls = q ++ [c] := by
    by_cases hd : ls.dropLast = []
    · rw [hl, hd, hpc]; exact ⟨p, by simp [join]⟩
    · rw [hl, join_snoc _ _ _ hd, hpc]
      exact ⟨join ['\n'] ls.dropLast ++ ['\n'] ++ p, by simp⟩
  obtain ⟨q, hq⟩ := hend
  rw [hq] at ht
  have := List.append_inj_right' ht rfl
  simp at this; exact hc this.symm

/-- C26. A separator that occurs: the text is the left part, the separator and the right part, and it is the first
occurrence. -/
theorem C26_split2_found (s sep : Text) (i : Nat) (h : sep ≠ []) (ho : OccursAt sep s i) (hf : ∀ j, j < i → ¬ OccursAt sep s j) :
    ∃ l r, split2 s sep = some (l, r) ∧ s = l ++ sep ++ r ∧ l.length = i := by
  refine ⟨s.take i, s.drop (i + sep.length), ?_, (occurs_eq ho).1, ?_⟩
  · unfold split2
    rw [if_neg h, index?_some.2 ⟨ho, hf⟩]
  · have := occurs_le ho; simp; omega

/-- C26. A separator that does not occur. -/
theorem C26_split2_absent (s sep : Text) (h : sep ≠ []) (ho : ∀ i, ¬ OccursAt sep s i) : split2 s sep = some (s, []) := by
  unfold split2
  rw [if_neg h, index?_none.2 ho]

/-- C26 (violated). Two empty texts make `Split2` panic. -/
theorem C26_split2_panics : split2 [] [] = none := rfl

/-- C26. An empty separator cuts after the first character. -/
theorem C26_split2_empty (c : Char) (cs : Text) : split2 (c :: cs) [] = some ([c], cs) := rfl

example : splitLines (joinLines [T "a", T "", T "b"]) = [T "a", T "", T "b"] ∧ split2 (T "a=b=c") (T "=") = some (T "a", T "b=c") := by decide

end Verif
