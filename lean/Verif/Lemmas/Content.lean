import Verif.Lemmas.Replace
import Verif.Lemmas.Strings
import Verif.Model.Content
import Verif.Spec.ContentSpec
/-!
# Lemmas about the processing of a content
-/

namespace Verif.Lemmas
open Text Razor Spec Verif.Content

/-! ## The flags -/

/-- The flag of the line number `i`. -/
def flagAt (pause resume : Text) (flag : Bool) (lines : List Text) (i : Nat) : Bool :=
  (lines.take (i + 1)).foldl (pauseFlag pause resume) flag

theorem pauseLines_get (d : Delims) (lines : List Text) (g r : Bool) (i : Nat) :
    (pauseLines d g r lines)[i]? = lines[i]?.map
      (pauseLine d (flagAt pauseGoTemplate resumeGoTemplate g lines i) (flagAt pauseRazor resumeRazor r lines i)) := by
  induction lines generalizing g r i with
  | nil => simp [pauseLines]
  | cons l lines ih =>
    cases i with
    | zero => simp [pauseLines, flagAt]
    | succ i =>
      simp only [pauseLines, List.getElem?_cons_succ]
      rw [ih]
      simp [flagAt]

theorem pauseLines_length (d : Delims) (lines : List Text) (g r : Bool) : (pauseLines d g r lines).length = lines.length := by
  induction lines generalizing g r with
  | nil => rfl
  | cons l lines ih => simp [pauseLines, ih]

theorem pauseFlag_iff {p q : Text} {g : Bool} {l : Text} : pauseFlag p q g l = true ↔ (g = true ∨ p <:+: l) ∧ ¬ q <:+: l := by
  unfold pauseFlag
  rw [Bool.and_eq_true, Bool.or_eq_true, contains_iff, Bool.not_eq_true', ← contains_iff (p := q), Bool.not_eq_true]

theorem flagAt_iff {p q : Text} {g : Bool} {lines : List Text} {i : Nat} (hi : i < lines.length) :
    flagAt p q g lines i = true ↔ (g = true ∧ ∀ k, k ≤ i → ∀ l, lines[k]? = some l → ¬ q <:+: l) ∨ Paused p q lines i := by
  induction lines generalizing g i with
  | nil => simp at hi
  | cons l lines ih =>
    cases i with
    | zero =>
      simp only [flagAt, Nat.zero_add, List.take_succ_cons, List.take_zero, List.foldl_cons, List.foldl_nil]
      rw [pauseFlag_iff]
      constructor
      · rintro ⟨h | h, hq⟩
        · left
          refine ⟨h, fun k hk x hx => ?_⟩
          rw [Nat.le_zero.1 hk] at hx
          simp only [List.getElem?_cons_zero, Option.some.injEq] at hx
          rw [← hx]; exact hq
        · right
          refine ⟨0, Nat.le_refl _, ⟨l, rfl, h⟩, fun k _ hk x hx => ?_⟩
          rw [Nat.le_zero.1 hk] at hx
          simp only [List.getElem?_cons_zero, Option.some.injEq] at hx
          rw [← hx]; exact hq
      · rintro (⟨h, hq⟩ | ⟨j, hj, ⟨x, hx, hp⟩, hq⟩)
        · exact ⟨Or.inl h, hq 0 (Nat.le_refl _) l rfl⟩
        · rw [Nat.le_zero.1 hj] at hx hq
          simp only [List.getElem?_cons_zero, Option.some.injEq] at hx
          rw [← hx] at hp
          exact ⟨Or.inr hp, hq 0 (Nat.le_refl _) (Nat.le_refl _) l rfl⟩
    | succ i =>
      have e : flagAt p q g (l :: lines) (i + 1) = flagAt p q (pauseFlag p q g l) lines i := by simp [flagAt]
      rw [e, ih (by simpa using hi), pauseFlag_iff]
      constructor
      · rintro (⟨⟨h, hl⟩, hq⟩ | ⟨j, hj, ⟨x, hx, hp⟩, hq⟩)
        · have all : ∀ k, k ≤ i + 1 → ∀ x, (l :: lines)[k]? = some x → ¬ q <:+: x := by
            intro k hk x hx
            cases k with
            | zero => simp only [List.getElem?_cons_zero, Option.some.injEq] at hx; rw [← hx]; exact hl
            | succ k => exact hq k (by omega) x (by simpa using hx)
          rcases h with h | h
          · exact Or.inl ⟨h, all⟩
          · exact Or.inr ⟨0, by omega, ⟨l, rfl, h⟩, fun k _ hk => all k hk⟩
        · right
          refine ⟨j + 1, by omega, ⟨x, by simpa using hx, hp⟩, fun k hk hk' y hy => ?_⟩
          cases k with
          | zero => omega
          | succ k => exact hq k (by omega) (by omega) y (by simpa using hy)
      · rintro (⟨h, hq⟩ | ⟨j, hj, ⟨x, hx, hp⟩, hq⟩)
        · left
          exact ⟨⟨Or.inl h, hq 0 (by omega) l rfl⟩, fun k hk y hy => hq (k + 1) (by omega) y (by simpa using hy)⟩
        · cases j with
          | zero =>
            simp only [List.getElem?_cons_zero, Option.some.injEq] at hx
            rw [← hx] at hp
            left
            exact ⟨⟨Or.inr hp, hq 0 (Nat.le_refl _) (by omega) l rfl⟩, fun k hk y hy => hq (k + 1) (by omega) (by omega) y (by simpa using hy)⟩
          | succ j =>
            right
            exact ⟨j, by omega, ⟨x, by simpa using hx, hp⟩, fun k hk hk' y hy => hq (k + 1) (by omega) (by omega) y (by simpa using hy)⟩

theorem flagAt_false {p q : Text} {lines : List Text} {i : Nat} (hi : i < lines.length) :
    flagAt p q false lines i = true ↔ Paused p q lines i := by
  rw [flagAt_iff hi]; simp

/-! ## The delimiters of a paused line -/

/-- The texts that stand for the delimiters. -/
def marks3 : Delims := ⟨pausedLeft, pausedRight, pausedRazor⟩

/-- A text found at the beginning of some pieces is made of characters, when no delimiter begins with one of its characters. -/
theorem prefix_write_head {d : Delims} {k : Text}
    (hd : ∀ x ∈ [d.left, d.right, d.razor], ∃ c w, x = c :: w ∧ c ∉ k) {toks : List Tok} (h : k <+: write d toks) : k.map Tok.char <+: toks := by
  induction k generalizing toks with
  | nil => simp
  | cons x k ih =>
    cases toks with
    | nil => simp [write] at h
    | cons t ts =>
      rw [write_cons] at h
      have bad : ∀ q ∈ [d.left, d.right, d.razor], ¬ (x :: k <+: q ++ write d ts) := by
        intro q hq hp
        obtain ⟨c, w, rfl, hc⟩ := hd q hq
        rw [List.cons_append, List.cons_prefix_cons] at hp
        exact hc (by simp [hp.1])
      cases t with
      | razor => exact absurd h (bad _ (by simp [Tok.text]))
      | left => exact absurd h (bad _ (by simp [Tok.text]))
      | right => exact absurd h (bad _ (by simp [Tok.text]))
      | char c =>
        simp only [Tok.text, List.singleton_append] at h
        rw [List.cons_prefix_cons] at h
        rw [List.map_cons, List.cons_prefix_cons, h.1]
        refine ⟨rfl, ih (fun q hq => ?_) h.2⟩
        obtain ⟨c, w, e, hc⟩ := hd q hq
        exact ⟨c, w, e, fun hk => hc (by simp [hk])⟩

/-- The texts that stand for delimiters are passed over by the replacement of another text. -/
theorem replaceAll_mark {k v m s : Text} (h1 : '$' ∉ k) (h2 : ¬ k <:+: m ++ ['$']) :
    replaceAll k v (m ++ ['$'] ++ s) = m ++ ['$'] ++ replaceAll k v s := by
  apply replaceAll_over
  intro a b e hb hp
  rcases List.eq_nil_or_concat b with rfl | ⟨b', y, rfl⟩
  · exact hb rfl
  · simp only [List.concat_eq_append] at e hp
    have hy : y = '$' := by
      have := congrArg List.getLast? e
      simp at this; exact this.symm
    subst hy
    rcases infix_append_of_last h1 hp.isInfix with h | h
    · exact h2 (by rw [e]; exact h.trans (List.suffix_append _ _).isInfix)
    · rcases List.prefix_or_prefix_of_prefix hp (List.prefix_append (b' ++ ['$']) s) with h3 | h3
      · exact h2 (by rw [e]; exact h3.isInfix.trans (List.suffix_append _ _).isInfix)
      · exact h1 (h3.subset (by simp))

theorem marks3_shape : ∀ x ∈ [pausedLeft, pausedRight, pausedRazor], ∃ m, x = m ++ ['$'] ∧ ∃ w, x = '$' :: w := by
  intro x hx
  simp only [List.mem_cons, List.not_mem_nil, or_false] at hx
  rcases hx with rfl | rfl | rfl
  · exact ⟨T "$&paused-left&", by decide, T "&paused-left&$", by decide⟩
  · exact ⟨T "$&paused-right&", by decide, T "&paused-right&$", by decide⟩
  · exact ⟨T "$&paused-razor&", by decide, T "&paused-razor&$", by decide⟩

/-- A delimiter is replaced by its piece `t`. -/
theorem replace_piece {k : Text} (hk : k ≠ []) (h1 : '$' ∉ k) (h2 : ∀ x ∈ [pausedLeft, pausedRight, pausedRazor], ¬ k <:+: x) (t : Tok) :
    ∀ toks : List Tok, ∃ toks', write marks3 toks' = replaceAll k (t.text marks3) (write marks3 toks) ∧
      ∀ d : Delims, t.text d = k → write d toks' = write d toks := by
  have key : ∀ n (toks : List Tok), toks.length ≤ n → ∃ toks', write marks3 toks' = replaceAll k (t.text marks3) (write marks3 toks) ∧
      ∀ d : Delims, t.text d = k → write d toks' = write d toks := by
    intro n
    induction n with
    | zero =>
      intro toks h
      rw [List.length_eq_zero_iff.1 (Nat.le_zero.1 h)]
      exact ⟨[], by simp [write, replaceAll_nil], fun _ _ => rfl⟩
    | succ n ih =>
      intro toks h
      cases toks with
      | nil => exact ⟨[], by simp [write, replaceAll_nil], fun _ _ => rfl⟩
      | cons u us =>
        have over : ∀ x, x ∈ [pausedLeft, pausedRight, pausedRazor] → u.text marks3 = x → ∃ toks', write marks3 toks' =
            replaceAll k (t.text marks3) (write marks3 (u :: us)) ∧ ∀ d : Delims, t.text d = k → write d toks' = write d (u :: us) := by
          intro x hx hu
          obtain ⟨us', e1, e2⟩ := ih us (by simpa using h)
          obtain ⟨m, hm, _⟩ := marks3_shape x hx
          refine ⟨u :: us', ?_, fun d hd => by rw [write_cons, write_cons, e2 d hd]⟩
          rw [write_cons, write_cons, e1, hu, hm, replaceAll_mark h1 (by rw [← hm]; exact h2 x hx)]
        cases u with
        | left => exact over pausedLeft (by simp) rfl
        | right => exact over pausedRight (by simp) rfl
        | razor => exact over pausedRazor (by simp) rfl
        | char c =>
          cases hp : hasPrefix k (write marks3 (.char c :: us)) with
          | true =>
            have hpre := prefix_write_head (d := marks3) (k := k) (fun x hx => by
              obtain ⟨_, _, w, hw⟩ := marks3_shape x hx
              exact ⟨'$', w, hw, h1⟩) (hasPrefix_iff.1 hp)
            obtain ⟨rest, hr⟩ := hpre
            have hl : rest.length ≤ n := by
              have h1 := congrArg List.length hr
              have h2 := List.length_pos_iff.2 hk
              simp only [List.length_append, List.length_cons, List.length_map] at h1 h
              omega
            obtain ⟨us', e1, e2⟩ := ih rest hl
            refine ⟨t :: us', ?_, fun d hd => ?_⟩
            · rw [← hr, write_append, write_chars, replaceAll_match _ _ hk, write_cons, e1]
            · rw [← hr, write_append, write_chars, write_cons, hd, e2 d hd]
          | false =>
            obtain ⟨us', e1, e2⟩ := ih us (by simpa using h)
            refine ⟨.char c :: us', ?_, fun d hd => by rw [write_cons, write_cons, e2 d hd]⟩
            rw [write_cons, e1]
            rw [write_cons] at hp ⊢
            simp only [Tok.text, List.singleton_append] at hp ⊢
            rw [replaceAll_skip hp]
  exact fun toks => key toks.length toks (Nat.le_refl _)

theorem _root_.Verif.Spec.Compatible.facts {d : Delims} (h : Compatible d) {x : Text} (hx : x ∈ [d.left, d.right, d.razor]) :
    x ≠ [] ∧ '$' ∉ x ∧ ∀ m ∈ [pausedLeft, pausedRight, pausedRazor], ¬ x <:+: m := by
  obtain ⟨h1, h2, h3, _, _, h4, h5, h6⟩ := h x hx
  refine ⟨h1, h2, ?_⟩
  have cut : ∀ w : Text, ¬ x <:+: w → ¬ x <:+: ['$', '&'] ++ w ++ ['&', '$'] := by
    intro w hw hi
    have h7 : x <:+: ['$', '&'] ∨ x <:+: w ++ ['&', '$'] := by
      have : ['$', '&'] ++ w ++ ['&', '$'] = ['$'] ++ ['&'] ++ (w ++ ['&', '$']) := by simp
      rw [this] at hi
      exact infix_append_of_last h3 hi
    rcases h7 with h7 | h7
    · obtain ⟨c, x', rfl⟩ := List.exists_cons_of_ne_nil h1
      have := h7.subset (List.mem_cons_self (a := c) (l := x'))
      simp only [List.mem_cons, List.not_mem_nil, or_false] at this
      rcases this with rfl | rfl
      · exact h2 (by simp)
      · exact h3 (by simp)
    · have : w ++ ['&', '$'] = w ++ ['&'] ++ ['$'] := by simp
      rw [this] at h7
      rcases infix_append_of_last h3 h7 with h8 | h8
      · have h8' : x <:+: w ++ ['&'] ++ [] := by simpa using h8
        -- the occurrence does not use the last character
        obtain ⟨a, b, e⟩ := h8
        rcases List.eq_nil_or_concat b with rfl | ⟨b', y, rfl⟩
        · rcases List.eq_nil_or_concat x with rfl | ⟨x', z, rfl⟩
          · exact h1 rfl
          · simp only [List.concat_eq_append, List.append_nil, ← List.append_assoc] at e
            have := List.append_inj_right' e rfl
            simp only [List.cons.injEq, and_true] at this
            exact h3 (by simp [this])
        · simp only [List.concat_eq_append, ← List.append_assoc] at e
          have := List.append_inj_left' e rfl
          exact hw ⟨a, b', this⟩
      · obtain ⟨c, x', rfl⟩ := List.exists_cons_of_ne_nil h1
        have := h8.subset (List.mem_cons_self (a := c) (l := x'))
        simp only [List.mem_cons, List.not_mem_nil, or_false] at this
        exact h2 (by simp [this])
  intro m hm
  simp only [List.mem_cons, List.not_mem_nil, or_false] at hm
  rcases hm with rfl | rfl | rfl
  · exact cut _ h4
  · exact cut _ h5
  · exact cut _ h6

/-- The pieces of a paused line. -/
theorem pauseLine_pieces {d : Delims} (h : Compatible d) (g r : Bool) (line : Text) :
    ∃ toks : List Tok, write marks3 toks = pauseLine d g r line ∧ write d toks = line := by
  obtain ⟨l1, l2, l3⟩ := h.facts (x := d.left) (by simp)
  obtain ⟨r1, r2, r3⟩ := h.facts (x := d.right) (by simp)
  obtain ⟨z1, z2, z3⟩ := h.facts (x := d.razor) (by simp)
  have first : ∃ toks : List Tok, write marks3 toks = (if r || g then replaceAll d.razor pausedRazor line else line) ∧ write d toks = line := by
    cases r || g with
    | false => exact ⟨line.map Tok.char, by simp [write_chars], write_chars _ _⟩
    | true =>
      obtain ⟨toks, e1, e2⟩ := replace_piece z1 z2 z3 .razor (line.map Tok.char)
      rw [write_chars] at e1
      exact ⟨toks, e1, by rw [e2 d rfl, write_chars]⟩
  obtain ⟨t1, e1, f1⟩ := first
  unfold pauseLine
  cases g with
  | false => exact ⟨t1, by simpa using e1, f1⟩
  | true =>
    obtain ⟨t2, e2, f2⟩ := replace_piece l1 l2 l3 .left t1
    obtain ⟨t3, e3, f3⟩ := replace_piece r1 r2 r3 .right t2
    refine ⟨t3, ?_, by rw [f3 d rfl, f2 d rfl, f1]⟩
    rw [e3, e2, e1]
    rfl

/-- The pieces do not have the beginning of a mark in their characters. -/
def NoMark (toks : List Tok) : Prop := ¬ (T "&paused").map Tok.char <:+: toks

theorem NoMark.tail {t : Tok} {ts : List Tok} (h : NoMark (t :: ts)) : NoMark ts := fun hi => h (List.infix_cons hi)

theorem not_mark {d : Delims} (hd : ∀ x ∈ [d.left, d.right, d.razor], ∃ c w, x = c :: w ∧ c ∉ T "&paused") {toks : List Tok}
    (h : NoMark toks) {w : Text} : ¬ T "&paused" ++ w <+: write d toks := by
  intro hp
  exact h (prefix_write_head hd ((List.prefix_append _ _).trans hp)).isInfix

/-- A mark is replaced by the text of its piece. -/
theorem restore_piece {d : Delims} (t : Tok) (v w : Text) (hm : t.text d = '$' :: (T "&paused" ++ w))
    (hd : ∀ x ∈ [d.left, d.right, d.razor], ∃ c w, x = c :: w ∧ c ∉ T "&paused")
    (hover : ∀ u : Tok, u ≠ t → (∀ c, u ≠ .char c) → '$' ∉ u.text d ∨
      ∃ m, u.text d = '$' :: (m ++ ['$']) ∧ '$' ∉ m ∧ ∀ s, ¬ t.text d <+: '$' :: (m ++ ['$'] ++ s))
    (d' : Delims) (hd' : t.text d' = v) (hs : ∀ u, u ≠ t → u.text d' = u.text d) (hc : ∀ c, t ≠ .char c)
    {toks : List Tok} (h : NoMark toks) : replaceAll (t.text d) v (write d toks) = write d' toks := by
  induction toks with
  | nil => exact replaceAll_nil _ _
  | cons u us ih =>
    rw [write_cons, write_cons]
    by_cases hu : u = t
    · subst hu
      rw [replaceAll_match _ _ (by rw [hm]; simp), ih h.tail, hd']
    · rw [hs u hu]
      have dollar : ¬ t.text d <+: '$' :: write d us := by
        rw [hm]
        intro hp
        rw [List.cons_prefix_cons] at hp
        exact not_mark hd h.tail hp.2
      have over : replaceAll (t.text d) v (u.text d ++ write d us) = u.text d ++ replaceAll (t.text d) v (write d us) := by
        cases u with
        | char c =>
          change replaceAll (t.text d) v (c :: write d us) = c :: replaceAll (t.text d) v (write d us)
          rw [replaceAll_skip]
          cases hp : hasPrefix (t.text d) (c :: write d us) with
          | false => rfl
          | true =>
            exfalso
            have hp := hasPrefix_iff.1 hp
            by_cases hcd : c = '$'
            · rw [hcd] at hp; exact dollar hp
            · rw [hm, List.cons_prefix_cons] at hp
              exact hcd hp.1.symm
        | _ =>
          rcases hover _ hu (by intro c; simp) with h1 | ⟨m, e, h1, h2⟩
          · rw [hm]; exact replaceAll_pass h1
          · rw [e]
            apply replaceAll_over
            intro a b eab hb hp
            cases a with
            | nil =>
              simp only [List.nil_append] at eab
              rw [← eab] at hp
              exact h2 _ hp
            | cons a0 a =>
              simp only [List.cons_append, List.cons.injEq] at eab
              rcases List.eq_nil_or_concat b with rfl | ⟨b', y, rfl⟩
              · exact hb rfl
              · simp only [List.concat_eq_append, ← List.append_assoc] at eab hp
                have ey := List.append_inj' eab.2 rfl
                simp only [List.cons.injEq, and_true] at ey
                rw [← ey.2] at hp
                cases b' with
                | nil => exact dollar (by simpa using hp)
                | cons b0 b' =>
                  rw [hm, List.cons_append, List.cons_append, List.cons_prefix_cons] at hp
                  exact h1 (by rw [ey.1, hp.1]; simp)
      rw [over, ih h.tail]

theorem _root_.Verif.Spec.Compatible.head {d : Delims} (h : Compatible d) {x : Text} (hx : x ∈ [d.left, d.right, d.razor]) :
    ∃ c w, x = c :: w ∧ c ∉ T "&paused" := by
  obtain ⟨h1, _, h3, _, h4, _⟩ := h x hx
  obtain ⟨c, w, rfl⟩ := List.exists_cons_of_ne_nil h1
  refine ⟨c, w, rfl, fun hc => ?_⟩
  have : T "&paused" = '&' :: T "paused" := by decide
  rw [this, List.mem_cons] at hc
  rcases hc with rfl | hc
  · exact h3 (by simp)
  · exact h4 c (by simp) hc

/-- Two texts that differ in their first characters. -/
theorem not_prefix_of_take {k m : Text} (n : Nat) (hm : n ≤ m.length) (h : k.take n ≠ m.take n) (hk : n ≤ k.length) (s : Text) : ¬ k <+: m ++ s := by
  rintro ⟨r, hr⟩
  apply h
  have := congrArg (List.take n) hr
  rwa [List.take_append_of_le_length hk, List.take_append_of_le_length hm] at this

/-- The marks become the delimiters again. -/
theorem revert_pieces {d : Delims} (h : Compatible d) {toks : List Tok} (hm : NoMark toks) : revert d true (write marks3 toks) = write d toks := by
  have hl := h.head (x := d.left) (by simp)
  have hr := h.head (x := d.right) (by simp)
  have hz := h.head (x := d.razor) (by simp)
  have ml : ∃ c w, pausedLeft = c :: w ∧ c ∉ T "&paused" := ⟨'$', T "&paused-left&$", by decide, by decide⟩
  have mr : ∃ c w, pausedRight = c :: w ∧ c ∉ T "&paused" := ⟨'$', T "&paused-right&$", by decide, by decide⟩
  have mz : ∃ c w, pausedRazor = c :: w ∧ c ∉ T "&paused" := ⟨'$', T "&paused-razor&$", by decide, by decide⟩
  have three : ∀ {P : Text → Prop} {a b c : Text}, P a → P b → P c → ∀ x ∈ [a, b, c], P x := by
    intro P a b c ha hb hc x hx
    simp only [List.mem_cons, List.not_mem_nil, or_false] at hx
    rcases hx with rfl | rfl | rfl
    · exact ha
    · exact hb
    · exact hc
  have d1 : '$' ∉ d.left := (h.facts (x := d.left) (by simp)).2.1
  have d2 : '$' ∉ d.right := (h.facts (x := d.right) (by simp)).2.1
  simp only [revert, if_true]
  have e1 : replaceAll pausedLeft d.left (write marks3 toks) = write ⟨d.left, pausedRight, pausedRazor⟩ toks := by
    refine restore_piece (d := marks3) .left d.left (T "-left&$") (by decide) (three ml mr mz) ?_ ⟨d.left, pausedRight, pausedRazor⟩ rfl ?_ (by simp) hm
    · intro u hu hcu
      right
      cases u with
      | left => exact absurd rfl hu
      | right => exact ⟨T "&paused-right&", by decide, by decide, not_prefix_of_take (k := pausedLeft) (m := pausedRight) 11 (by decide) (by decide) (by decide)⟩
      | razor => exact ⟨T "&paused-razor&", by decide, by decide, not_prefix_of_take (k := pausedLeft) (m := pausedRazor) 11 (by decide) (by decide) (by decide)⟩
      | char c => exact absurd rfl (hcu c)
    · intro u hu; cases u <;> first | rfl | exact absurd rfl hu
  have e2 : replaceAll pausedRight d.right (write ⟨d.left, pausedRight, pausedRazor⟩ toks) = write ⟨d.left, d.right, pausedRazor⟩ toks := by
    refine restore_piece (d := ⟨d.left, pausedRight, pausedRazor⟩) .right d.right (T "-right&$") (show pausedRight = _ by decide) (three hl mr mz) ?_ ⟨d.left, d.right, pausedRazor⟩ rfl ?_ (by simp) hm
    · intro u hu hcu
      cases u with
      | left => exact Or.inl d1
      | right => exact absurd rfl hu
      | razor => exact Or.inr ⟨T "&paused-razor&", show pausedRazor = _ by decide, by decide, not_prefix_of_take (k := pausedRight) (m := pausedRazor) 11 (by decide) (by decide) (by decide)⟩
      | char c => exact absurd rfl (hcu c)
    · intro u hu; cases u <;> first | rfl | exact absurd rfl hu
  have e3 : replaceAll pausedRazor d.razor (write ⟨d.left, d.right, pausedRazor⟩ toks) = write d toks := by
    refine restore_piece (d := ⟨d.left, d.right, pausedRazor⟩) .razor d.razor (T "-razor&$") (show pausedRazor = _ by decide) (three hl hr mz) ?_ d rfl ?_ (by simp) hm
    · intro u hu hcu
      cases u with
      | left => exact Or.inl d1
      | right => exact Or.inl d2
      | razor => exact absurd rfl hu
      | char c => exact absurd rfl (hcu c)
    · intro u hu; cases u <;> first | rfl | exact absurd rfl hu
  rw [e1, e2, e3]

/-- A paused line is found again. -/
theorem revert_pauseLine {d : Delims} (h : Compatible d) (g r : Bool) {line : Text} (hm : ¬ T "&paused" <:+: line) :
    revert d true (pauseLine d g r line) = line := by
  obtain ⟨toks, e1, e2⟩ := pauseLine_pieces h g r line
  rw [← e1, revert_pieces h, e2]
  intro hi
  obtain ⟨a, b, hab⟩ := hi
  apply hm
  rw [← e2, ← hab, write_append, write_append, write_chars]
  exact ⟨_, _, rfl⟩

/-- What is found in a paused line was in the line, or is a part of a mark. -/
theorem infix_pauseLine {d : Delims} (h : Compatible d) (g r : Bool) {line q : Text} (hq : '$' ∉ q)
    (hq2 : ∀ m ∈ [pausedLeft, pausedRight, pausedRazor], ¬ q <:+: m) (hi : q <:+: pauseLine d g r line) : q <:+: line := by
  have step : ∀ k v s : Text, v ∈ [pausedLeft, pausedRight, pausedRazor] → k ≠ [] → q <:+: replaceAll k v s → q <:+: s := by
    intro k v s hv hk
    obtain ⟨m, e1, w, e2⟩ := marks3_shape v hv
    exact infix_replaceAll e2 e1 hq hq (hq2 v hv) hk
  unfold pauseLine at hi
  have first : q <:+: (if r || g then replaceAll d.razor pausedRazor line else line) → q <:+: line := by
    cases r || g with
    | false => exact id
    | true => exact step _ _ _ (by simp) (h.facts (x := d.razor) (by simp)).1
  cases g with
  | false => exact first (by simpa using hi)
  | true =>
    simp only [if_true] at hi
    exact first (step _ _ _ (by simp) (h.facts (x := d.left) (by simp)).1 (step _ _ _ (by simp) (h.facts (x := d.right) (by simp)).1 hi))

/-- A replaced delimiter is not in the line any more, and the other replacements do not bring it back. -/
theorem pauseLine_free {d : Delims} (h : Compatible d) (g r : Bool) (line : Text) :
    ((r || g) = true → ¬ d.razor <:+: pauseLine d g r line) ∧ (g = true → ¬ d.left <:+: pauseLine d g r line ∧ ¬ d.right <:+: pauseLine d g r line) := by
  have gone : ∀ k v s : Text, v ∈ [pausedLeft, pausedRight, pausedRazor] → k ∈ [d.left, d.right, d.razor] → ¬ k <:+: replaceAll k v s := by
    intro k v s hv hk
    obtain ⟨m, e1, w, e2⟩ := marks3_shape v hv
    obtain ⟨h1, h2, h3⟩ := h.facts hk
    exact not_infix_replaceAll e2 e1 h2 h2 (h3 v hv) h1 s
  have keep : ∀ q k v s : Text, v ∈ [pausedLeft, pausedRight, pausedRazor] → q ∈ [d.left, d.right, d.razor] → k ∈ [d.left, d.right, d.razor] →
      q <:+: replaceAll k v s → q <:+: s := by
    intro q k v s hv hq hk
    obtain ⟨m, e1, w, e2⟩ := marks3_shape v hv
    obtain ⟨h1, h2, h3⟩ := h.facts hq
    exact infix_replaceAll e2 e1 h2 h2 (h3 v hv) (h.facts hk).1
  constructor
  · intro hf hi
    unfold pauseLine at hi
    cases g with
    | false =>
      simp only [Bool.or_false] at hf
      simp only [hf, Bool.or_false, if_true] at hi
      exact gone d.razor pausedRazor line (by simp) (by simp) (by simpa using hi)
    | true =>
      simp only [Bool.or_true, if_true] at hi
      exact gone _ _ _ (by simp) (by simp) (keep _ _ _ _ (by simp) (by simp) (by simp) (keep _ _ _ _ (by simp) (by simp) (by simp) hi))
  · intro hg
    subst hg
    unfold pauseLine
    simp only [if_true]
    exact ⟨fun hi => gone _ _ _ (by simp) (by simp) (keep _ _ _ _ (by simp) (by simp) (by simp) hi), gone _ _ _ (by simp) (by simp)⟩

/-- Lines are reverted one by one. -/
theorem revert_join (d : Delims) (ls : List Text) : revert d true (join ['\n'] ls) = join ['\n'] (ls.map (revert d true)) := by
  simp only [revert, if_true]
  rw [replaceAll_join (by decide), replaceAll_join (by decide), replaceAll_join (by decide), List.map_map, List.map_map]
  rfl

theorem showNoValue_join (ls : List Text) : showNoValue (join ['\n'] ls) = join ['\n'] (ls.map showNoValue) := by
  unfold showNoValue
  rw [replaceAll_join (by decide), replaceAll_join (by decide), List.map_map]
  rfl

end Verif.Lemmas
