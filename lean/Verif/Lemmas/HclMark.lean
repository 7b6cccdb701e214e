import Verif.Lemmas.HclLex
import Verif.Lemmas.Wrap
/-!
# Lemmas on the internal marker and on keys
-/

namespace Verif
namespace Lemmas
open Spec Text HclOut

theorem infix_glue {m a b : Text} {c : Char} (hc : c ∉ m) (h : m <:+: a ++ c :: b) : m <:+: a ∨ m <:+: b := by
  obtain ⟨s, t, h⟩ := h
  rw [List.append_assoc] at h
  rcases List.append_eq_append_iff.1 h with ⟨x, h1, h2⟩ | ⟨x, h1, h2⟩
  · -- a = s ++ x
    rcases List.append_eq_append_iff.1 h2 with ⟨y, h3, h4⟩ | ⟨y, h3, h4⟩
    · exact .inl ⟨s, y, by rw [h1, h3]; simp⟩
    · cases y with
      | nil => exact .inl ⟨s, [], by rw [h1, h3]; simp⟩
      | cons z y =>
        simp only [List.cons_append, List.cons.injEq] at h4
        rw [h3, h4.1] at hc
        simp at hc
  · -- s = a ++ x
    cases x with
    | nil =>
      cases m with
      | nil => exact .inl ⟨[], a, by simp⟩
      | cons z m =>
        simp only [List.cons_append, List.cons.injEq, List.nil_append] at h2
        rw [← h2.1] at hc
        simp at hc
    | cons z x =>
      simp only [List.cons_append, List.cons.injEq] at h2
      exact .inr ⟨x, t, by rw [h2.2]; simp⟩

/-- The marker is not a part of the text. -/
def HclUnmarked (s : Text) : Prop := ¬ marker <:+: s

theorem noMark_glue {a b : Text} {c : Char} (hc : c ∉ marker) (ha : HclUnmarked a) (hb : HclUnmarked b) : HclUnmarked (a ++ c :: b) := fun h =>
  (infix_glue hc h).elim ha hb

theorem noMark_nil : HclUnmarked [] := by
  unfold HclUnmarked
  rw [List.infix_nil]
  decide

theorem noMark_cons {b : Text} {c : Char} (hc : c ∉ marker) (hb : HclUnmarked b) : HclUnmarked (c :: b) := noMark_glue (a := []) hc noMark_nil hb

theorem noMark_append_left {a b : Text} (ha : ∀ c ∈ a, c ∉ marker) (hb : HclUnmarked b) : HclUnmarked (a ++ b) := by
  induction a with
  | nil => exact hb
  | cons c a ih => exact noMark_cons (ha c (by simp)) (ih (fun c hc => ha c (List.mem_cons_of_mem _ hc)))

theorem noMark_infix {a b : Text} (h : a <:+: b) (hb : HclUnmarked b) : HclUnmarked a := fun h' => hb (h'.trans h)

/-- Without the first character of the marker. -/
theorem noMark_of_sharp {s : Text} (h : '#' ∉ s) : HclUnmarked s := fun h' => h (h'.subset (by decide))

theorem noMark_append_right {a b : Text} (ha : HclUnmarked a) (hb : ∀ c ∈ b, c ∉ marker) : HclUnmarked (a ++ b) := by
  cases b with
  | nil => simpa using ha
  | cons c b =>
    refine noMark_glue (hb c (by simp)) ha ?_
    have := noMark_append_left (b := []) (a := b) (fun c hc => hb c (List.mem_cons_of_mem _ hc)) noMark_nil
    simpa using this

theorem noMark_join {c : Char} {sep : Text} {l : List Text} (hc : c ∉ marker) (hs : ∀ c ∈ sep, c ∉ marker) (h : ∀ x ∈ l, HclUnmarked x) :
    HclUnmarked (join (c :: sep) l) := by
  induction l with
  | nil => exact noMark_nil
  | cons x l ih =>
    cases l with
    | nil => exact h x (by simp)
    | cons y l =>
      rw [join_cons_of_ne _ _ (by simp), List.append_assoc]
      exact noMark_glue hc (h x (by simp)) (noMark_append_left hs (ih (fun x hx => h x (List.mem_cons_of_mem _ hx))))

theorem infix_join (sep : Text) {l : List Text} {x : Text} (h : x ∈ l) : x <:+: join sep l := by
  induction l with
  | nil => simp at h
  | cons y l ih =>
    cases l with
    | nil => simp at h; subst h; exact List.infix_refl _
    | cons z l =>
      rw [join_cons_of_ne _ _ (by simp)]
      rcases List.mem_cons.1 h with rfl | h
      · exact ⟨[], sep ++ join sep (z :: l), by simp⟩
      · obtain ⟨s, t, e⟩ := ih h
        exact ⟨y ++ sep ++ s, t, by rw [← e]; simp⟩

theorem noMark_indent {s w : Text} (hw : ∀ c ∈ w, HWhite c) (hs : HclUnmarked s) : HclUnmarked (Strings.indent s w) := by
  have hw' : ∀ c ∈ w, c ∉ marker := fun c hc => by rcases hw c hc with rfl | rfl | rfl <;> decide
  refine noMark_join (by decide) (by simp) (fun x hx => ?_)
  obtain ⟨y, hy, rfl⟩ := List.mem_map.1 hx
  refine noMark_append_left hw' (noMark_infix ?_ hs)
  have := infix_join ['\n'] hy
  rwa [join_splitC] at this

/-! ## Quoted texts -/

theorem prefix_escape {pr : Char → Bool} {m s : Text} (hm : '\\' ∉ m) (h : m <+: s.flatMap (Quote.escape pr)) : m <+: s := by
  induction m generalizing s with
  | nil => exact List.nil_prefix
  | cons x m ih =>
    cases s with
    | nil => simp at h
    | cons c s =>
      rw [List.flatMap_cons] at h
      rcases escape_forms pr c with ⟨e, _⟩ | ⟨e, w, he, _⟩
      · rw [e] at h
        simp only [List.cons_append, List.nil_append, List.cons_prefix_cons] at h ⊢
        exact ⟨h.1, ih (fun h' => hm (List.mem_cons_of_mem _ h')) h.2⟩
      · rw [he] at h
        simp only [List.cons_append, List.cons_prefix_cons] at h
        exact absurd (by rw [h.1]; simp) hm

theorem infix_drop {m a b : Text} {x : Char} (ha : x ∉ a) (h : x :: m <:+: a ++ b) : x :: m <:+: b := by
  induction a with
  | nil => exact h
  | cons c a ih =>
    rw [List.cons_append, List.infix_cons_iff] at h
    rcases h with h | h
    · rw [List.cons_prefix_cons] at h
      exact absurd (by rw [h.1]; simp) ha
    · exact ih (fun h' => ha (List.mem_cons_of_mem _ h')) h

theorem infix_escape {pr : Char → Bool} {m s : Text} {x : Char} (hm : '\\' ∉ x :: m) (hx : x ∉ T "\"\\abfnrtvxuU") (hx' : x ∉ T "0123456789abcdef")
    (h : x :: m <:+: s.flatMap (Quote.escape pr)) : x :: m <:+: s := by
  induction s with
  | nil => exact h
  | cons c s ih =>
    rcases escape_forms pr c with ⟨e, _⟩ | ⟨e, w, he, he1, hw, _⟩
    · have h' := h
      rw [List.flatMap_cons, e, List.cons_append, List.nil_append, List.infix_cons_iff] at h'
      rw [List.infix_cons_iff]
      rcases h' with h' | h'
      · refine .inl (prefix_escape hm ?_ (pr := pr))
        rw [List.flatMap_cons, e]; exact h'
      · exact .inr (ih h')
    · rw [List.flatMap_cons, he] at h
      refine (List.infix_cons_iff.2 (.inr (ih (infix_drop ?_ h))))
      intro hm'
      rcases List.mem_cons.1 hm' with h1 | hm'
      · exact hm (by rw [h1]; simp)
      · rcases List.mem_cons.1 hm' with h1 | hm'
        · exact hx (h1 ▸ he1)
        · exact hx' (hw _ hm').2

theorem noMark_quote (pr : Char → Bool) {s : Text} (h : HclUnmarked s) : HclUnmarked (Quote.quote pr s) := by
  refine noMark_cons (by decide) (noMark_append_right (fun h' => h ?_) (by decide))
  exact infix_escape (x := '#') (m := T "HCL_ARRAY_MAP#!") (by decide) (by decide) (by decide) h'

/-- `\n` appears in the quoted text only for an end of line, or for a backslash before an `n`. -/
theorem newline_quote (pr : Char → Bool) {s : Text} (h : T "\\n" <:+: Quote.quote pr s) : '\n' ∈ s ∨ T "\\n" <:+: s := by
  have h1 : T "\\n" <:+: s.flatMap (Quote.escape pr) := by
    have h2 : T "\\n" <:+: s.flatMap (Quote.escape pr) ++ ['"'] := infix_drop (a := ['"']) (by decide) h
    rcases infix_glue (c := '"') (b := []) (by decide) h2 with h | h
    · exact h
    · rw [List.infix_nil] at h; cases h
  clear h
  induction s with
  | nil => rw [List.flatMap_nil, List.infix_nil] at h1; cases h1
  | cons c s ih =>
    have next : T "\\n" <:+: s.flatMap (Quote.escape pr) → '\n' ∈ c :: s ∨ T "\\n" <:+: c :: s := fun h =>
      (ih h).elim (fun h => .inl (List.mem_cons_of_mem _ h)) (fun h => .inr (List.infix_cons_iff.2 (.inr h)))
    rcases escape_forms pr c with ⟨e, hp⟩ | ⟨e, w, he, he1, hw, hn, hb, _⟩
    · rw [List.flatMap_cons, e] at h1
      exact next (infix_drop (by simpa using fun h => hp.2.1 h.symm) h1)
    · rw [List.flatMap_cons, he, List.cons_append, List.infix_cons_iff] at h1
      rcases h1 with h1 | h1
      · have : 'n' = e := by
          simp only [T] at h1
          have := List.cons_prefix_cons.1 h1
          exact (List.cons_prefix_cons.1 this.2).1
        exact .inl (by rw [(hn this.symm).1]; simp)
      · by_cases heb : e = '\\'
        · obtain ⟨hc, rfl⟩ := hb heb
          rw [List.cons_append, List.nil_append, List.infix_cons_iff] at h1
          rcases h1 with h1 | h1
          · have h2 : T "n" <+: s.flatMap (Quote.escape pr) := (List.cons_prefix_cons.1 h1).2
            have h3 := prefix_escape (by decide) h2
            refine .inr (List.infix_cons_iff.2 (.inl ?_))
            rw [hc]
            exact List.cons_prefix_cons.2 ⟨rfl, h3⟩
          · exact next h1
        · refine next (infix_drop (a := e :: w) ?_ h1)
          intro hm
          rcases List.mem_cons.1 hm with h | h
          · exact heb h.symm
          · exact (hw _ h).1.2.1 rfl

/-! ## The end of a text -/

theorem replaceAll_snoc {old new : Text} {x : Char} (hne : old ≠ []) (t : Text) (h : ¬ old <:+ t ++ [x]) :
    replaceAll old new (t ++ [x]) = replaceAll old new t ++ [x] := by
  have key : ∀ n (t : Text), t.length ≤ n → ¬ old <:+ t ++ [x] → replaceAll old new (t ++ [x]) = replaceAll old new t ++ [x] := by
    intro n
    induction n with
    | zero =>
      intro t ht h
      have : t = [] := List.length_eq_zero_iff.1 (by omega)
      subst this
      rw [List.nil_append, replaceAll_skip, replaceAll_nil]; rfl
      rw [Bool.eq_false_iff]
      intro hp
      obtain ⟨r, hr⟩ := hasPrefix_iff.1 hp
      cases old with
      | nil => exact hne rfl
      | cons o os =>
        simp only [List.cons_append, List.cons.injEq, List.append_eq_nil_iff] at hr
        exact h ⟨[], by simp [hr]⟩
    | succ n ih =>
      intro t ht h
      cases t with
      | nil => exact ih [] (by simp) h
      | cons c t =>
        by_cases hp : old <+: c :: t
        · obtain ⟨r, hr⟩ := hp
          rw [← hr, List.append_assoc, replaceAll_match _ _ hne, replaceAll_match _ _ hne, List.append_assoc]
          have hl : r.length ≤ n := by
            have := congrArg List.length hr
            simp only [List.length_append, List.length_cons] at this ht
            have := List.length_pos_iff.2 hne
            omega
          rw [ih r hl (fun hs => h (hs.trans ⟨old, by rw [← hr]; simp⟩))]
        · have hs1 : hasPrefix old (c :: (t ++ [x])) = false := by
            rw [Bool.eq_false_iff]
            intro hp'
            obtain ⟨r, hr⟩ := hasPrefix_iff.1 hp'
            rw [← List.cons_append] at hr
            rcases List.append_eq_append_iff.1 hr with ⟨y, h1, h2⟩ | ⟨y, h1, h2⟩
            · exact hp ⟨y, h1.symm⟩
            · cases y with
              | nil => exact hp ⟨[], by rw [h1]; simp⟩
              | cons z y =>
                simp only [List.cons_append, List.cons.injEq] at h2
                have hy := List.append_eq_nil_iff.1 h2.2.symm
                refine h ⟨[], ?_⟩
                rw [h1, hy.1, ← h2.1]; rfl
          have hs2 : hasPrefix old (c :: t) = false := by
            rw [Bool.eq_false_iff]; intro h'; exact hp (hasPrefix_iff.1 h')
          rw [List.cons_append, replaceAll_skip hs1, replaceAll_skip hs2,
            ih t (by simpa using ht) (fun hs => h (hs.trans ⟨[c], by simp⟩))]
          rfl
  exact key _ t (Nat.le_refl _) h

/-- The last character of the result is the last one of the text or of the replacement. -/
theorem replaceAll_last {old : Text} {b x : Char} (hne : old ≠ []) (t : Text) :
    ∃ r y, replaceAll old [b] (t ++ [x]) = r ++ [y] ∧ (y = x ∨ y = b) := by
  have key : ∀ n (t : Text), t.length ≤ n → ∃ r y, replaceAll old [b] (t ++ [x]) = r ++ [y] ∧ (y = x ∨ y = b) := by
    intro n
    induction n with
    | zero =>
      intro t ht
      have : t = [] := List.length_eq_zero_iff.1 (by omega)
      subst this
      by_cases hs : old <:+ [] ++ [x]
      · have : old = [x] := by
          rcases List.suffix_cons_iff.1 hs with h | h
          · exact h
          · rw [List.suffix_nil] at h; exact absurd h hne
        refine ⟨[], b, ?_, .inr rfl⟩
        have h2 := replaceAll_match [b] [] hne
        rw [replaceAll_nil, List.append_nil] at h2
        rw [List.nil_append, ← this, h2]; rfl
      · exact ⟨_, x, replaceAll_snoc hne [] hs, .inl rfl⟩
    | succ n ih =>
      intro t ht
      cases t with
      | nil => exact ih [] (by simp)
      | cons c t =>
        by_cases hp : old <+: c :: (t ++ [x])
        · obtain ⟨r, hr⟩ := hp
          rw [List.cons_append, ← hr, replaceAll_match _ _ hne]
          by_cases hr0 : r = []
          · exact ⟨[], b, by rw [hr0, replaceAll_nil]; rfl, .inr rfl⟩
          · obtain ⟨r', z, rfl⟩ : ∃ r' z, r = r' ++ [z] := ⟨r.dropLast, r.getLast hr0, (List.dropLast_concat_getLast hr0).symm⟩
            have hz : z = x := by
              rw [← List.append_assoc, ← List.cons_append] at hr
              have := (List.append_inj' hr rfl).2
              simpa using this
            subst hz
            have hl : r'.length ≤ n := by
              have := congrArg List.length hr
              simp only [List.length_append, List.length_cons, List.length_nil] at this ht
              have := List.length_pos_iff.2 hne
              omega
            obtain ⟨r2, y, h1, h2⟩ := ih r' hl
            exact ⟨[b] ++ r2, y, by rw [h1]; simp, h2⟩
        · have hs1 : hasPrefix old (c :: (t ++ [x])) = false := by
            rw [Bool.eq_false_iff]; intro h'; exact hp (hasPrefix_iff.1 h')
          obtain ⟨r2, y, h1, h2⟩ := ih t (by simpa using ht)
          exact ⟨c :: r2, y, by rw [List.cons_append, replaceAll_skip hs1, h1]; rfl, h2⟩
  exact key _ t (Nat.le_refl _)

/-- The text ends with `x`, and not with a backslash and one of `n`, `r`, `t`. -/
def EndsWith (x : Char) (t : Text) : Prop := ∃ t', t = t' ++ [x] ∧ (x ∈ T "nrt" → ¬ T "\\" <:+ t')

theorem endsWith_replace {x a b : Char} {t : Text} (h : EndsWith x t) (ha : a ∈ T "nrt" ∨ b = a) (hb : b = '\\' → a = '\\') :
    EndsWith x (replaceAll ['\\', a] [b] t) := by
  obtain ⟨t', rfl, ht⟩ := h
  by_cases hs : ['\\', a] <:+ t' ++ [x]
  · have hxa : x = a ∧ T "\\" <:+ t' := by
      obtain ⟨s, hs⟩ := hs
      have e : s ++ ['\\', a] = (s ++ ['\\']) ++ [a] := by simp
      rw [e] at hs
      have := List.append_inj' hs rfl
      simp only [List.cons.injEq, and_true] at this
      exact ⟨this.2.symm, ⟨s, this.1⟩⟩
    have hx : x ∉ T "nrt" := fun hx => ht hx hxa.2
    have hba : b = a := ha.elim (fun h => absurd (hxa.1 ▸ h) hx) id
    obtain ⟨r, y, h1, h2⟩ := replaceAll_last (b := b) (x := x) (old := ['\\', a]) (by simp) t'
    have hy : y = x := h2.elim id (fun h => by rw [h, hba, hxa.1])
    exact ⟨r, by rw [h1, hy], fun h => absurd h hx⟩
  · refine ⟨_, replaceAll_snoc (by simp) t' hs, fun hx hsuf => ?_⟩
    have htn := ht hx
    by_cases h0 : t' = []
    · subst h0
      rw [replaceAll_nil] at hsuf
      exact htn hsuf
    · obtain ⟨t2, y, rfl⟩ : ∃ r' z, t' = r' ++ [z] := ⟨t'.dropLast, t'.getLast h0, (List.dropLast_concat_getLast h0).symm⟩
      have hy : y ≠ '\\' := by rintro rfl; exact htn ⟨t2, rfl⟩
      obtain ⟨r, z, h1, h2⟩ := replaceAll_last (b := b) (x := y) (old := ['\\', a]) (by simp) t2
      have hz : z = '\\' := by
        rw [h1] at hsuf
        obtain ⟨s, hs'⟩ := hsuf
        have := (List.append_inj' hs' rfl).2
        simpa [T] using this.symm
      rcases h2 with h2 | h2
      · exact hy (h2 ▸ hz)
      · have ha' := hb (h2 ▸ hz)
        have hns : ¬ ['\\', a] <:+ t2 ++ [y] := by
          rintro ⟨s, hs'⟩
          have e : s ++ ['\\', a] = (s ++ ['\\']) ++ [a] := by simp
          rw [e] at hs'
          have := (List.append_inj' hs' rfl).2
          simp only [List.cons.injEq, and_true] at this
          exact hy (this ▸ ha')
        rw [replaceAll_snoc (by simp) t2 hns] at h1
        have := (List.append_inj' h1 rfl).2
        simp only [List.cons.injEq, and_true] at this
        exact hy (this.trans hz)

theorem endsWith_escape (pr : Char → Bool) {s : Text} (h : EndsPlain s) : ∃ x, isSpace x = false ∧ EndsWith x (s.flatMap (Quote.escape pr)) := by
  obtain ⟨t, c, rfl, hc, hn⟩ := h
  rw [List.flatMap_append]
  have e : List.flatMap (Quote.escape pr) [c] = Quote.escape pr c := by simp
  rw [e]
  rcases escape_forms pr c with ⟨e, _⟩ | ⟨e, w, he, he1, hw, hen, _, _, her, het⟩
  · refine ⟨c, hc, _, by rw [e], fun hx hs => ?_⟩
    by_cases h0 : t = []
    · subst h0; rw [List.flatMap_nil, List.suffix_nil] at hs; cases hs
    · obtain ⟨t2, p, rfl⟩ : ∃ r' z, t = r' ++ [z] := ⟨t.dropLast, t.getLast h0, (List.dropLast_concat_getLast h0).symm⟩
      have hp : p ≠ '\\' := by rintro rfl; exact hn hx ⟨t2, rfl⟩
      rw [List.flatMap_append] at hs
      have e2 : List.flatMap (Quote.escape pr) [p] = Quote.escape pr p := by simp
      rw [e2] at hs
      have last : ∀ (a l : Text) (z : Char), T "\\" <:+ a ++ (l ++ [z]) → z = '\\' := by
        rintro a l z ⟨s, hs⟩
        rw [← List.append_assoc] at hs
        have := (List.append_inj' hs rfl).2
        simpa [T] using this.symm
      rcases escape_forms pr p with ⟨e3, _⟩ | ⟨e3, w3, he3, _, hw3, _, hb3, _⟩
      · rw [e3] at hs
        exact hp (last _ [] p hs)
      · rw [he3] at hs
        by_cases hw0 : w3 = []
        · subst hw0
          exact hp (hb3 (last _ ['\\'] e3 hs)).1
        · have := List.dropLast_concat_getLast hw0
          rw [← this] at hs
          exact (hw3 _ (List.getLast_mem hw0)).1.2.1 (last _ ('\\' :: e3 :: w3.dropLast) _ (by simpa using hs))
  · rw [he]
    by_cases hw0 : w = []
    · subst hw0
      refine ⟨e, ?_, t.flatMap (Quote.escape pr) ++ ['\\'], by simp, fun hx => ?_⟩
      · have : ∀ e ∈ T "\"\\abfnrtvxuU", isSpace e = false := by decide
        exact this e he1
      · exfalso
        have : e = 'n' ∨ e = 'r' ∨ e = 't' := by simpa [T] using hx
        rcases this with h | h | h
        · rw [(hen h).1] at hc; revert hc; decide
        · rw [her h] at hc; revert hc; decide
        · rw [het h] at hc; revert hc; decide
    · have hmem := (hw _ (List.getLast_mem hw0)).2
      have : ∀ e ∈ T "0123456789abcdef", isSpace e = false ∧ e ∉ T "nrt" := by decide
      refine ⟨w.getLast hw0, (this _ hmem).1, t.flatMap (Quote.escape pr) ++ '\\' :: e :: w.dropLast, ?_, fun hx => absurd hx (this _ hmem).2⟩
      have h2 := List.dropLast_concat_getLast hw0
      rw [List.append_assoc, List.cons_append, List.cons_append, h2]

theorem trimPrefix_last {sp l : Text} {x : Char} (hx : isSpace x = false) (hs : ∀ c ∈ sp, isSpace c = true) :
    ∃ l', trimPrefix sp (l ++ [x]) = l' ++ [x] := by
  unfold trimPrefix
  cases h : dropPrefix? sp (l ++ [x]) with
  | none => exact ⟨l, rfl⟩
  | some r =>
    have h' := dropPrefix?_eq_some.1 h
    by_cases hr : r = []
    · subst hr
      rw [List.append_nil] at h'
      have := hs x (by rw [← h']; simp)
      rw [hx] at this; cases this
    · obtain ⟨r', z, rfl⟩ : ∃ r' z, r = r' ++ [z] := ⟨r.dropLast, r.getLast hr, (List.dropLast_concat_getLast hr).symm⟩
      rw [← List.append_assoc] at h'
      have := (List.append_inj' h' rfl).2
      simp only [List.cons.injEq, and_true] at this
      exact ⟨r', by rw [this]; rfl⟩

theorem takeWhile_isSpace (l : Text) : ∀ c ∈ l.takeWhile isSpace, isSpace c = true := by
  induction l with
  | nil => simp
  | cons d l ih =>
    intro c hc
    rw [List.takeWhile_cons] at hc
    split at hc
    · rcases List.mem_cons.1 hc with rfl | hc
      · assumption
      · exact ih c hc
    · simp at hc

theorem unIndentLoop_last {x : Char} (hx : isSpace x = false) (ls : List Text) (o : Option Text) (ho : ∀ sp, o = some sp → ∀ c ∈ sp, isSpace c = true)
    {pre : List Text} {l : Text} (hl : ls = pre ++ [l ++ [x]]) {r : List Text} (h : Strings.unIndentLoop o ls = some r) :
    ∃ pre' l', r = pre' ++ [l' ++ [x]] := by
  have step : ∀ (o' : Option Text) (rest : List Text) (line' : Text) (line : Text) (pre : List Text),
      (∀ pre, rest = pre ++ [l ++ [x]] → ∀ r, Strings.unIndentLoop o' rest = some r → ∃ pre' l', r = pre' ++ [l' ++ [x]]) →
      line :: rest = pre ++ [l ++ [x]] → (line = l ++ [x] → ∃ l', line' = l' ++ [x]) →
      ∀ r, (Strings.unIndentLoop o' rest).map (line' :: ·) = some r → ∃ pre' l', r = pre' ++ [l' ++ [x]] := by
    intro o' rest line' line pre ih hpre hline r hr
    cases hq : Strings.unIndentLoop o' rest with
    | none => rw [hq] at hr; cases hr
    | some q =>
      rw [hq] at hr
      simp only [Option.map_some, Option.some.injEq] at hr
      subst hr
      cases pre with
      | nil =>
        simp only [List.nil_append, List.cons.injEq] at hpre
        obtain ⟨h1, rfl⟩ := hpre
        obtain ⟨l', rfl⟩ := hline h1
        simp only [Strings.unIndentLoop, Option.some.injEq] at hq
        subst hq
        exact ⟨[], l', rfl⟩
      | cons p pre =>
        simp only [List.cons_append, List.cons.injEq] at hpre
        obtain ⟨pre', l', rfl⟩ := ih pre hpre.2 q hq
        exact ⟨line' :: pre', l', rfl⟩
  induction ls generalizing o pre r with
  | nil => simp at hl
  | cons line rest ih =>
    cases o with
    | none =>
      unfold Strings.unIndentLoop at h
      split at h
      · exact step none rest line line pre (fun pre hp r hr => ih none (by simp) hp hr) hl (fun h => ⟨l, h⟩) r h
      · simp only at h
        split at h
        · cases h
        · rw [Strings.take_leading] at h
          have hsp := takeWhile_isSpace line
          refine step _ rest _ line pre (fun pre hp r hr => ih _ (by rintro sp ⟨⟩; exact hsp) hp hr) hl (fun h => ?_) r h
          have := trimPrefix_last (l := l) hx hsp
          rwa [← h] at this
    | some sp =>
      have hsp := ho sp rfl
      unfold Strings.unIndentLoop at h
      split at h
      · cases h
      · refine step _ rest _ line pre (fun pre hp r hr => ih _ (by rintro sp' ⟨⟩; exact hsp) hp hr) hl (fun h => ?_) r h
        rw [h]
        exact trimPrefix_last hx hsp

theorem join_snoc (sep x : Text) {l : List Text} (h : l ≠ []) : join sep (l ++ [x]) = join sep l ++ (sep ++ x) := by
  induction l with
  | nil => exact absurd rfl h
  | cons y l ih =>
    cases l with
    | nil => simp [join]
    | cons z l =>
      rw [List.cons_append, join_cons_of_ne _ _ (by simp), ih (by simp), join_cons_of_ne sep y (l := z :: l) (by simp)]
      simp

theorem join_last (sep l : Text) (x : Char) (pre : List Text) : ∃ t, join sep (pre ++ [l ++ [x]]) = t ++ [x] := by
  by_cases h : pre = []
  · subst h; exact ⟨l, by simp [join]⟩
  · rw [join_snoc _ _ h]; exact ⟨join sep pre ++ (sep ++ l), by simp⟩

theorem splitC_last {t : Text} {x : Char} (hx : x ≠ '\n') : ∃ pre l, splitC '\n' (t ++ [x]) = pre ++ [l ++ [x]] := by
  induction t with
  | nil => exact ⟨[], [], by simp [splitC, hx]⟩
  | cons c t ih =>
    obtain ⟨pre, l, h⟩ := ih
    by_cases hc : c = '\n'
    · exact ⟨[] :: pre, l, by simp [splitC, hc, h]⟩
    · cases pre with
      | nil => exact ⟨[], c :: l, by simp [splitC, hc, h]⟩
      | cons p pre => exact ⟨(c :: p) :: pre, l, by simp [splitC, hc, h]⟩

theorem unIndent_last {t : Text} {x : Char} (hx : isSpace x = false) : ∃ t', Strings.unIndent (t ++ [x]) = t' ++ [x] := by
  have hn : x ≠ '\n' := by rintro rfl; revert hx; decide
  unfold Strings.unIndent
  simp only
  split
  · exact ⟨t, rfl⟩
  · obtain ⟨pre, l, h⟩ := splitC_last (t := t) hn
    cases hq : Strings.unIndentLoop none (splitC '\n' (t ++ [x])) with
    | none => exact ⟨t, rfl⟩
    | some r =>
      obtain ⟨pre', l', rfl⟩ := unIndentLoop_last hx _ none (by simp) h hq
      exact join_last _ _ _ _

/-- Such a text is written in quotes. -/
theorem renderText_endsPlain (pr : Char → Bool) (indent : Text) {s : Text} (h : EndsPlain s) : renderText pr indent s = Quote.quote pr s := by
  have hb : hasSuffix (T "\n") (heredocBody (Quote.quote pr s)) = false := by
    obtain ⟨x, hx, he⟩ := endsWith_escape pr h
    have e : ((Quote.quote pr s).drop 1).dropLast = s.flatMap (Quote.escape pr) := by simp [Quote.quote]
    unfold heredocBody
    rw [e]
    have h1 := endsWith_replace (a := 'n') (b := '\n') he (.inl (by decide)) (by decide)
    have h2 := endsWith_replace (a := '\\') (b := '\\') h1 (.inr rfl) (by decide)
    have h3 := endsWith_replace (a := '"') (b := '"') h2 (.inr rfl) (by decide)
    have h4 := endsWith_replace (a := 'r') (b := '\r') h3 (.inl (by decide)) (by decide)
    have h5 := endsWith_replace (a := 't') (b := '\t') h4 (.inl (by decide)) (by decide)
    obtain ⟨t', ht, _⟩ := h5
    obtain ⟨t2, h6⟩ := unIndent_last (t := t') hx
    rw [← ht] at h6
    rw [Bool.eq_false_iff]
    intro hs
    have hs' := hasSuffix_iff.1 hs
    have h7 : T "\n" <:+ t2 ++ [x] := by rw [← h6]; exact hs'
    obtain ⟨u, hu⟩ := h7
    have := (List.append_inj' hu rfl).2
    have hxe : x = '\n' := by simpa [T] using this.symm
    rw [hxe] at hx
    revert hx; decide
  unfold renderText
  simp only
  split
  · rw [if_neg (by simp [hb])]
  · rfl

/-! ## Keys -/

/-- The token of a key. -/
def keyTok (k : Text) : HTok := if Hcl.isIdentifier k then .word k else .str k

theorem word_of_isWord {c : Char} (h : (Hcl.isWord c || c == '-') = true) : wordChar c = true := by
  simp only [Hcl.isWord, Bool.or_eq_true] at h
  simp only [wordChar, Bool.or_eq_true]
  rcases h with (((h | h) | h) | h) | h <;> simp_all

theorem identifier_chars {k : Text} (hk : QuotedKey k) (h : Hcl.isIdentifier k = true) :
    (∀ c ∈ k, wordChar c = true) ∧ keyOf (.word k) = some k := by
  cases k with
  | nil => simp [Hcl.isIdentifier] at h
  | cons c t =>
    simp only [Hcl.isIdentifier, Bool.and_eq_true, Bool.or_eq_true, decide_eq_true_eq, List.all_eq_true] at h
    have hr : 'A' ≤ c ∧ c ≤ 'z' := by
      rcases h.1 with h | h
      · exact h
      · exact ⟨Char.le_trans (by decide) h.1, h.2⟩
    have hn : 65 ≤ c.toNat ∧ c.toNat ≤ 122 := ⟨hr.1, hr.2⟩
    have hq := hk.2 c t rfl
    have fin : ∀ n : Fin 128, 65 ≤ n.1 → n.1 ≤ 122 → Char.ofNat n.1 ∉ T "[\\]^`" →
        (wordChar (Char.ofNat n.1) = true ∧
          ('a' ≤ Char.ofNat n.1 && Char.ofNat n.1 ≤ 'z' || 'A' ≤ Char.ofNat n.1 && Char.ofNat n.1 ≤ 'Z' || Char.ofNat n.1 == '_') = true) := by
      decide +kernel
    have hf := fin ⟨c.toNat, by omega⟩ hn.1 hn.2 (by simpa [Char.ofNat_toNat] using hq)
    rw [Char.ofNat_toNat] at hf
    refine ⟨fun d hd => ?_, ?_⟩
    · rcases List.mem_cons.1 hd with rfl | hd
      · exact hf.1
      · exact word_of_isWord (by simpa using h.2 d hd)
    · rw [keyOf, if_pos hf.2]

theorem lexes_id (pr : Char → Bool) {k : Text} (hk : QuotedKey k) : Lexes (Hcl.id pr k) [keyTok k] := by
  unfold Hcl.id keyTok
  by_cases h : Hcl.isIdentifier k
  · rw [if_pos h, if_pos h]
    exact lexes_word (by rintro rfl; simp [Hcl.isIdentifier] at h) (identifier_chars hk h).1
  · rw [if_neg h, if_neg h]; exact lexes_quote pr k

theorem keyOf_keyTok {k : Text} (hk : QuotedKey k) : keyOf (keyTok k) = some k := by
  unfold keyTok
  by_cases h : Hcl.isIdentifier k
  · rw [if_pos h]; exact (identifier_chars hk h).2
  · rw [if_neg h]; rfl

theorem noMark_id (pr : Char → Bool) {k : Text} (hk : QuotedKey k) : HclUnmarked (Hcl.id pr k) := by
  unfold Hcl.id
  split
  · exact hk.1
  · exact noMark_quote pr hk.1

end Lemmas
end Verif
