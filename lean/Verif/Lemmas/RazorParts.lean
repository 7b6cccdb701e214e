import Verif.Lemmas.RazorLike
import Verif.Lemmas.RazorMail
import Verif.Spec.RazorPartsSpec
/-!
# The rules of razor on the parts of a text
-/

namespace Verif.Lemmas
open Verif Regex Spec Engine Razor Table

/-! ## Expressions that stay in a line -/

/-- No match has an end of line, and the limits of the text are like those of its lines. -/
def inLines (letter : Char → Bool) : Re → Bool
  | .eps | .edge => true
  | .bol m | .eol m => m
  | .cls k => !k.has letter '\n'
  | .seq a b | .alt a b => inLines letter a && inLines letter b
  | .opt _ a | .star _ a | .group _ a => inLines letter a

theorem inLines_congr {f g : Char → Bool} (h : f '\n' = g '\n') (r : Re) : inLines f r = inLines g r := by
  induction r with
  | eps | bol | eol | edge => rfl
  | cls k => simp only [inLines, Cls.has_congr h]
  | seq a b iha ihb | alt a b iha ihb => simp only [inLines, iha, ihb]
  | opt _ a ih | star _ a ih | group _ a ih => simp only [inLines, ih]

/-- The end of a line: the end of the text, or more lines. -/
def LineEnd (X : Text) : Prop := X = [] ∨ ∃ b, X = '\n' :: b

/-- The beginning of a line may be the one of the text. -/
def Prev (p p' : Option Char) : Prop := p = p' ∨ p = some '\n' ∧ p' = none

/-- The same continuation, with or without what follows the line. -/
def Agree {β : Type} (X : Text) (k k' : Cont β) : Prop := ∀ p p' s c, Prev p p' → k p (s ++ X) c = k' p' s c

theorem run_none {β : Type} {letter : Char → Bool} {r : Re} {p : Option Char} {s : Text} {c : Caps} {k : Cont β} (hk : ∀ p s c, k p s c = none) :
    run letter r p s c k = none := by
  cases h : run letter r p s c k with
  | none => rfl
  | some x =>
    obtain ⟨_, _, _, _, _, h'⟩ := run_sound letter r h
    rw [hk] at h'
    cases h'

theorem run_lines {letter : Char → Bool} {X : Text} (hX : LineEnd X) (r : Re) : ∀ {β : Type} {p p' : Option Char} {s : Text} {c : Caps} {k k' : Cont β},
    inLines letter r = true → Prev p p' → Agree X k k' → run letter r p (s ++ X) c k = run letter r p' s c k' := by
  induction r with
  | eps => intro β p p' s c k k' _ hp hk; exact hk p p' s c hp
  | cls K =>
    intro β p p' s c k k' hr hp hk
    simp only [inLines, Bool.not_eq_true'] at hr
    simp only [run]
    cases s with
    | nil =>
      rcases hX with rfl | ⟨b, rfl⟩
      · rfl
      · simp [oneChar, hr]
    | cons d s =>
      simp only [List.cons_append, oneChar]
      rw [hk (some d) (some d) s c (.inl rfl)]
  | bol m =>
    intro β p p' s c k k' hr hp hk
    simp only [inLines] at hr
    subst hr
    have : atStart true p = atStart true p' := by
      rcases hp with rfl | ⟨rfl, rfl⟩ <;> rfl
    simp only [run]
    rw [this, hk p p' s c hp]
  | eol m =>
    intro β p p' s c k k' hr hp hk
    simp only [inLines] at hr
    subst hr
    have : atStop true (s ++ X) = atStop true s := by
      cases s with
      | nil => rcases hX with rfl | ⟨b, rfl⟩ <;> rfl
      | cons d s => rfl
    simp only [run]
    rw [this, hk p p' s c hp]
  | edge =>
    intro β p p' s c k k' hr hp hk
    have h1 : p.any isWordChar = p'.any isWordChar := by
      rcases hp with rfl | ⟨rfl, rfl⟩
      · rfl
      · decide
    have h2 : (s ++ X).head?.any isWordChar = s.head?.any isWordChar := by
      cases s with
      | nil => rcases hX with rfl | ⟨b, rfl⟩ <;> rfl
      | cons d s => rfl
    have h3 : atEdge p (s ++ X) = atEdge p' s := by
      unfold atEdge
      rw [h1, h2]
    simp only [run]
    rw [h3, hk p p' s c hp]
  | seq a b iha ihb =>
    intro β p p' s c k k' hr hp hk
    simp only [inLines, Bool.and_eq_true] at hr
    simp only [run]
    exact iha hr.1 hp (fun p p' s c hp => ihb hr.2 hp hk)
  | alt a b iha ihb =>
    intro β p p' s c k k' hr hp hk
    simp only [inLines, Bool.and_eq_true] at hr
    simp only [run]
    rw [iha hr.1 hp hk, ihb hr.2 hp hk]
  | opt g a ih =>
    intro β p p' s c k k' hr hp hk
    simp only [inLines] at hr
    cases g <;> simp only [run] <;> rw [ih hr hp hk, hk p p' s c hp]
  | group n a ih =>
    intro β p p' s c k k' hr hp hk
    simp only [inLines] at hr
    simp only [run]
    refine ih hr hp (fun p1 p1' s1 c1 hp1 => ?_)
    rw [hk p1 p1' s1 _ hp1]
    have : (s ++ X).take ((s ++ X).length - (s1 ++ X).length) = s.take (s.length - s1.length) := by
      rw [List.take_append_of_le_length (by simp only [List.length_append]; omega)]
      congr 1
      simp only [List.length_append]
      omega
    rw [this]
  | star g a ih =>
    intro β p p' s c k k' hr hp hk
    simp only [inLines] at hr
    simp only [run]
    have key : ∀ (n m : Nat) (p p' : Option Char) (s : Text) (c : Caps), s.length ≤ n → s.length ≤ m → Prev p p' →
        starLoop (fun p s c k => run letter a p s c k) g n p (s ++ X) c k = starLoop (fun p s c k => run letter a p s c k) g m p' s c k' := by
      intro n
      induction n with
      | zero =>
        intro m p p' s c hn _ hp
        have hs : s = [] := List.length_eq_zero_iff.mp (Nat.le_zero.mp hn)
        subst hs
        cases m with
        | zero => exact hk p p' [] c hp
        | succ m =>
          have hno : run letter a p' [] c (fun p'' s'' c'' => if s''.length < ([] : Text).length then starLoop (fun p s c k => run letter a p s c k) g m p'' s'' c'' k' else none) = none :=
            run_none (fun p s c => by simp)
          simp only [starLoop]
          rw [hno, hk p p' [] c hp]
          cases g <;> simp
      | succ n ihn =>
        intro m p p' s c hn hm hp
        cases m with
        | zero =>
          have hs : s = [] := List.length_eq_zero_iff.mp (Nat.le_zero.mp hm)
          subst hs
          have hno : run letter a p ([] ++ X) c (fun p'' s'' c'' => if s''.length < ([] ++ X).length then starLoop (fun p s c k => run letter a p s c k) g n p'' s'' c'' k else none) = none := by
            rw [ih (k' := fun _ _ _ => none) (p' := p') (s := []) hr hp (fun p1 p1' s1 c1 _ => by
              rw [if_neg (by simp only [List.length_append, List.length_nil]; omega)])]
            exact run_none (fun _ _ _ => rfl)
          simp only [starLoop]
          rw [hno, hk p p' [] c hp]
          cases g <;> simp
        | succ m =>
          have hstep : run letter a p (s ++ X) c (fun p'' s'' c'' => if s''.length < (s ++ X).length then starLoop (fun p s c k => run letter a p s c k) g n p'' s'' c'' k else none) =
              run letter a p' s c (fun p'' s'' c'' => if s''.length < s.length then starLoop (fun p s c k => run letter a p s c k) g m p'' s'' c'' k' else none) := by
            refine ih hr hp (fun p1 p1' s1 c1 hp1 => ?_)
            by_cases hl : s1.length < s.length
            · rw [if_pos (by simp only [List.length_append]; omega), if_pos hl]
              exact ihn m p1 p1' s1 c1 (by omega) (by omega) hp1
            · rw [if_neg (by simp only [List.length_append]; omega), if_neg hl]
          simp only [starLoop]
          rw [hstep, hk p p' s c hp]
    exact key _ _ p p' s c (by simp) (Nat.le_refl _) hp

theorem matchAt_lines {letter : Char → Bool} {X : Text} (hX : LineEnd X) {r : Re} (hr : inLines letter r = true) {p p' : Option Char} (hp : Prev p p') (s : Text) :
    matchAt letter r p (s ++ X) = matchAt letter r p' s := by
  unfold matchAt
  refine run_lines hX r hr hp (fun p1 p1' s1 c1 _ => ?_)
  simp only [List.length_append]
  rw [Nat.add_sub_add_right]

theorem matchAt_le {letter : Char → Bool} {r : Re} {p : Option Char} {s : Text} {n : Nat} {caps : Caps} (h : matchAt letter r p s = some (n, caps)) : n ≤ s.length := by
  unfold matchAt at h
  obtain ⟨x, q, c', rfl, _, h'⟩ := run_sound letter r h
  simp at h'
  simp
  omega

/-- The replacement at the beginning of a line is the one at the beginning of a text. -/
theorem replaceAux_prev {letter : Char → Bool} {r : Re} (hr : inLines letter r = true) (out : Text → Caps → Text) (b : Text) :
    replaceAux letter r out 0 (some '\n') b = replaceAux letter r out 0 none b := by
  cases b with
  | nil => rfl
  | cons c t =>
    have := matchAt_lines (letter := letter) (X := []) (.inl rfl) hr (p := some '\n') (p' := none) (.inr ⟨rfl, rfl⟩) (c :: t)
    rw [List.append_nil] at this
    simp only [replaceAux]
    rw [this]

theorem replaceRe_lines {letter : Char → Bool} {r : Re} (hr : inLines letter r = true) (out : Text → Caps → Text) (a b : Text) :
    replaceRe letter r out (a ++ '\n' :: b) = replaceRe letter r out a ++ '\n' :: replaceRe letter r out b := by
  have key : ∀ (a : Text) (n : Nat) (p : Option Char), n ≤ a.length →
      replaceAux letter r out n p (a ++ '\n' :: b) = replaceAux letter r out n p a ++ '\n' :: replaceAux letter r out 0 none b := by
    intro a
    induction a with
    | nil =>
      intro n p hn
      rw [Nat.le_zero.mp hn]
      have hm := matchAt_lines (letter := letter) (X := '\n' :: b) (.inr ⟨b, rfl⟩) hr (p := p) (p' := p) (.inl rfl) []
      rw [List.nil_append] at hm
      simp only [List.nil_append, replaceAux]
      rw [hm]
      cases h : matchAt letter r p [] with
      | none => simp [replaceAux_prev hr]
      | some x =>
        obtain ⟨m, caps⟩ := x
        have := matchAt_le h
        have : m = 0 := by simpa using this
        subst this
        simp [replaceAux_prev hr]
    | cons c t ih =>
      intro n p hn
      cases n with
      | succ n =>
        simp only [List.cons_append, replaceAux]
        exact ih n _ (by simpa using hn)
      | zero =>
        have hm := matchAt_lines (letter := letter) (X := '\n' :: b) (.inr ⟨b, rfl⟩) hr (p := p) (p' := p) (.inl rfl) (c :: t)
        rw [List.cons_append] at hm
        simp only [List.cons_append, replaceAux]
        rw [hm]
        cases h : matchAt letter r p (c :: t) with
        | none => simp [ih 0 (some c) (Nat.zero_le _)]
        | some x =>
          obtain ⟨m, caps⟩ := x
          cases m with
          | zero => simp [ih 0 (some c) (Nat.zero_le _)]
          | succ m =>
            have hle := matchAt_le h
            have hle' : m ≤ t.length := by simpa using hle
            simp only [List.take_succ_cons]
            rw [ih m (some c) hle', List.take_append_of_le_length hle', List.append_assoc]
  exact key a 0 none (Nat.zero_le _)

/-! ## The rules that stay in a line -/

theorem rules_lines {letter : Char → Bool} (hl : letter '\n' = false) (parser : Replacement → Text → Text) (lo n : Nat)
    (h : ∀ e ∈ (table.drop lo).take n, inLines (fun _ => false) e.2.2.2 = true) (a b : Text) :
    (((generate defaultDelims).drop lo).take n).foldl (applyRule letter parser) (a ++ '\n' :: b) =
      (((generate defaultDelims).drop lo).take n).foldl (applyRule letter parser) a ++ '\n' :: (((generate defaultDelims).drop lo).take n).foldl (applyRule letter parser) b := by
  have hr : ∀ r ∈ ((generate defaultDelims).drop lo).take n, ∀ a b, applyRule letter parser (a ++ '\n' :: b) r = applyRule letter parser a r ++ '\n' :: applyRule letter parser b r := by
    intro r hr a b
    obtain ⟨e, he, hc⟩ := rules_compiled lo n r hr
    rw [applyRule_compiled hc, applyRule_compiled hc, applyRule_compiled hc]
    exact replaceRe_lines (by rw [inLines_congr (g := fun _ => false) hl]; exact h e he) _ a b
  generalize ((generate defaultDelims).drop lo).take n = rs at hr
  induction rs generalizing a b with
  | nil => rfl
  | cons r rs ih =>
    rw [List.foldl_cons, List.foldl_cons, List.foldl_cons, hr r (List.mem_cons_self ..)]
    exact ih _ _ (fun r' h' => hr r' (List.mem_cons_of_mem _ h'))

theorem callMark_lines (a b : Text) : Text.replaceAll callMark [] (a ++ '\n' :: b) = Text.replaceAll callMark [] a ++ '\n' :: Text.replaceAll callMark [] b := by
  have h : ∀ s, Text.replaceAll callMark [] s = replaceRe (fun _ => false) (litRe callMark) (fun _ _ => []) s := fun s =>
    (replaceRe_litRe (fun _ => false) (w := callMark) (out := fun _ _ => []) (o := []) (by decide) rfl s).symm
  rw [h, h, h]
  exact replaceRe_lines (by decide +kernel) _ a b

/-! ## The rule of e-mail addresses -/

/-- What follows the beginning of an address. -/
def mailTail : Re := .seq (.seq (.seq (.seq (.cls mailCls) (.star true (.cls mailCls))) (lit '@')) labelRe) (.seq dotLabelRe (.star true dotLabelRe))

theorem mail_split {β : Type} (letter : Char → Bool) (p : Option Char) (s : Text) (c : Caps) (k : Cont β) :
    run letter mailRe p s c k = run letter mailStart p s c (fun p s c => run letter mailTail p s c k) := by
  unfold mailRe mailTail
  simp only [run_seq_eq]

theorem mail_tail_lines : inLines (fun _ => false) mailTail = true := by
  decide +kernel

theorem mail_tail_none {β : Type} {letter : Char → Bool} {p : Option Char} {b : Text} (hb : NoMailFirst b) {c : Caps} {k : Cont β} :
    run letter mailTail p b c k = none := by
  cases h : run letter mailTail p b c k with
  | none => rfl
  | some x =>
    exfalso
    obtain ⟨x, q, c', rfl, hf, _⟩ := run_sound letter _ h
    obtain ⟨x, x3, _, rfl, hf, _⟩ := fit_seq hf
    obtain ⟨x, x2, _, rfl, hf, _⟩ := fit_seq hf
    obtain ⟨w, x1, _, rfl, hf, h1⟩ := fit_seq hf
    rw [(fit_lit h1).1] at hb
    have hav : ∀ d, mailChar d = false → avoidsBy letter d (.seq (.cls mailCls) (.star true (.cls mailCls))) = true := by
      intro d hd
      simp [avoidsBy, mailCls_has, hd]
    have hne : w ≠ [] := by
      rintro rfl
      obtain ⟨u, v, _, e, h2, _⟩ := fit_seq hf
      cases h2
      simp at e
    obtain ⟨d, hd, hm⟩ := hb w (x2 ++ (x3 ++ q)) (by simp) hne
    exact avoidsBy_sound hf (hav d hm) hd

/-- Neither groups nor anchors. -/
def bare : Re → Bool
  | .eps | .cls _ => true
  | .bol _ | .eol _ | .edge | .group _ _ => false
  | .seq a b | .alt a b => bare a && bare b
  | .opt _ a | .star _ a => bare a

theorem run_bare {letter : Char → Bool} (r : Re) : ∀ {β : Type} (R : Option β → Option β → Prop), R none none → (∀ x x' y y', R x x' → R y y' → R (x.or y) (x'.or y')) →
    ∀ {p p' : Option Char} {s : Text} {c c' : Caps} {k k' : Cont β}, bare r = true → (∀ p p' t, t.length ≤ s.length → R (k p t c) (k' p' t c')) →
    R (run letter r p s c k) (run letter r p' s c' k') := by
  induction r with
  | eps => intro β R _ _ p p' s c c' k k' _ hk; exact hk p p' s (Nat.le_refl _)
  | cls K =>
    intro β R h0 _ p p' s c c' k k' _ hk
    simp only [run]
    cases s with
    | nil => exact h0
    | cons d s =>
      simp only [oneChar]
      split
      · exact hk _ _ s (by simp)
      · exact h0
  | bol | eol | edge | group => intro β R _ _ p p' s c c' k k' hr; simp [bare] at hr
  | seq a b iha ihb =>
    intro β R h0 hor p p' s c c' k k' hr hk
    simp only [bare, Bool.and_eq_true] at hr
    simp only [run]
    exact iha R h0 hor hr.1 (fun p p' t ht => ihb R h0 hor hr.2 (fun p p' t' ht' => hk p p' t' (Nat.le_trans ht' ht)))
  | alt a b iha ihb =>
    intro β R h0 hor p p' s c c' k k' hr hk
    simp only [bare, Bool.and_eq_true] at hr
    simp only [run]
    exact hor _ _ _ _ (iha R h0 hor hr.1 hk) (ihb R h0 hor hr.2 hk)
  | opt g a ih =>
    intro β R h0 hor p p' s c c' k k' hr hk
    simp only [bare] at hr
    cases g <;> simp only [run]
    · exact hor _ _ _ _ (hk p p' s (Nat.le_refl _)) (ih R h0 hor hr hk)
    · exact hor _ _ _ _ (ih R h0 hor hr hk) (hk p p' s (Nat.le_refl _))
  | star g a ih =>
    intro β R h0 hor p p' s c c' k k' hr hk
    simp only [bare] at hr
    simp only [run]
    have key : ∀ (n : Nat) (p p' : Option Char) (t : Text), t.length ≤ s.length →
        R (starLoop (fun p s c k => run letter a p s c k) g n p t c k) (starLoop (fun p s c k => run letter a p s c k) g n p' t c' k') := by
      intro n
      induction n with
      | zero => intro p p' t ht; exact hk p p' t ht
      | succ n ihn =>
        intro p p' t ht
        have hstep := ih R h0 hor (p := p) (p' := p') (s := t) (c := c) (c' := c')
          (k := fun p'' s'' c'' => if s''.length < t.length then starLoop (fun p s c k => run letter a p s c k) g n p'' s'' c'' k else none)
          (k' := fun p'' s'' c'' => if s''.length < t.length then starLoop (fun p s c k => run letter a p s c k) g n p'' s'' c'' k' else none) hr
          (fun p1 p1' t1 ht1 => by
            by_cases hl : t1.length < t.length
            · simp only [if_pos hl]
              exact ihn p1 p1' t1 (Nat.le_trans ht1 ht)
            · simp only [if_neg hl]
              exact h0)
        simp only [starLoop]
        cases g
        · exact hor _ _ _ _ (hk p p' t ht) hstep
        · exact hor _ _ _ _ hstep (hk p p' t ht)
    exact key _ p p' s (Nat.le_refl _)

/-- The address at the beginning of a line that begins like a word. -/
theorem mail_first {letter : Char → Bool} {d : Char} (hd : isWordChar d = true) (t : Text) (p : Option Char) :
    (matchAt letter mailRe p ('\n' :: d :: t)).map Prod.fst = (matchAt letter mailRe none (d :: t)).map (fun x => x.1 + 1) ∧
    matchAt letter mailRe (some '\n') (d :: t) = none := by
  have hnl : NoMailFirst ('\n' :: d :: t) := by
    intro w v e hw
    cases w with
    | nil => exact absurd rfl hw
    | cons c w => exact ⟨c, List.mem_cons_self .., by rw [← (List.cons.inj e).1]; decide⟩
  have h1 : (⟨false, [.nonWord]⟩ : Cls).has letter d = false := by simp [Cls.has, Item.has, hd]
  have h2 : (⟨false, [.nonWord]⟩ : Cls).has letter '\n' = true := by simp [Cls.has, Item.has]; decide
  constructor
  · unfold matchAt
    rw [mail_split, mail_split]
    simp only [mailStart, run, oneChar, h1, h2, mail_tail_none hnl, if_true, atStart, ite_self, Option.or_none, Bool.false_eq_true, if_false, Option.none_or]
    refine run_bare (letter := letter) mailTail (fun x y => x.map Prod.fst = y.map (fun z => z.1 + 1)) rfl ?_ (by decide +kernel) ?_
    · intro x x' y y' hx hy
      cases x <;> cases x' <;> simp_all
    · intro p p' s hs
      simp only [List.length_cons] at hs
      simp only [Option.map_some, List.length_cons, Option.some.injEq]
      omega
  · unfold matchAt
    rw [mail_split]
    simp [mailStart, run, oneChar, h1, atStart]

theorem mail_lines {letter : Char → Bool} (hl : letter '\n' = false) {out : Text → Caps → Text} (hout : ∀ x caps, out x caps = protectEmail x) (a b : Text) (hb : PlainFirst b) :
    replaceRe letter mailRe out (a ++ '\n' :: b) = replaceRe letter mailRe out a ++ '\n' :: replaceRe letter mailRe out b := by
  have ht : inLines letter mailTail = true := by
    rw [inLines_congr (g := fun _ => false) hl]
    exact mail_tail_lines
  have hnl : NoMailFirst ('\n' :: b) := by
    intro w v e hw
    cases w with
    | nil => exact absurd rfl hw
    | cons d w => exact ⟨d, List.mem_cons_self .., by rw [← (List.cons.inj e).1]; decide⟩
  -- a character of the first part
  have hin : ∀ (p : Option Char) (c : Char) (t : Text), matchAt letter mailRe p (c :: t ++ '\n' :: b) = matchAt letter mailRe p (c :: t) := by
    intro p c t
    have agree : ∀ (s : Text), Agree ('\n' :: b) (fun (_ : Option Char) s' c => some ((s ++ '\n' :: b).length - s'.length, c)) (fun _ s' c => some (s.length - s'.length, c)) := by
      intro s p1 p1' s1 c1 _
      simp only [List.length_append]
      rw [Nat.add_sub_add_right]
    unfold matchAt
    rw [mail_split, mail_split]
    simp only [mailStart, run, List.cons_append, oneChar]
    have h1 := fun (c' : Caps) => run_lines (β := Nat × Caps) (X := '\n' :: b) (.inr ⟨b, rfl⟩) _ (p := some c) (p' := some c) (s := t) (c := c') ht (.inl rfl) (agree (c :: t))
    have h2 := fun (c' : Caps) => run_lines (β := Nat × Caps) (X := '\n' :: b) (.inr ⟨b, rfl⟩) _ (p := p) (p' := p) (s := c :: t) (c := c') ht (.inl rfl) (agree (c :: t))
    simp only [List.cons_append] at h1 h2
    simp only [h1, h2]
    simp
  -- the end of line
  have hend : ∀ (p : Option Char), replaceAux letter mailRe out 0 p ('\n' :: b) = '\n' :: replaceAux letter mailRe out 0 none b := by
    intro p
    rcases hb with ⟨d, t, rfl, hd⟩ | hb
    · have hw : isWordChar d = true := by
        unfold isWordChar
        rcases hd with hd | rfl
        · simp [hd]
        · decide
      have hne : d ≠ '@' ∧ d ≠ '#' := by
        constructor <;> (rintro rfl; revert hw; decide)
      obtain ⟨h1, h2⟩ := mail_first (letter := letter) hw t p
      simp only [replaceAux]
      cases hm : matchAt letter mailRe none (d :: t) with
      | none =>
        rw [hm] at h1
        rw [Option.map_eq_none_iff.mp h1, h2]
      | some y =>
        obtain ⟨m, caps⟩ := y
        rw [hm] at h1
        obtain ⟨y', hy', e⟩ := Option.map_eq_some_iff.mp h1
        obtain ⟨m', caps'⟩ := y'
        simp only at e
        subst e
        rw [hy']
        simp only
        cases m with
        | zero =>
          simp only [hout, replaceAux, h2]
          rfl
        | succ m =>
          simp only [hout, List.take_succ_cons, replaceAux, protectEmail, doubleFirst, hne.1, hne.2]
          simp
    · have hat : matchAt letter mailRe p ('\n' :: b) = none := by
        unfold matchAt
        rw [mail_split]
        simp only [mailStart, run, oneChar, mail_tail_none hb, mail_tail_none hnl]
        simp
      have hbegin : matchAt letter mailRe (some '\n') b = matchAt letter mailRe none b := by
        unfold matchAt
        rw [mail_split, mail_split]
        simp only [mailStart, run, mail_tail_none hb]
        simp [atStart]
      rw [replaceAux, hat]
      cases b with
      | nil => rfl
      | cons c t =>
        simp only [replaceAux]
        rw [hbegin]
  have key : ∀ (a : Text) (n : Nat) (p : Option Char), n ≤ a.length →
      replaceAux letter mailRe out n p (a ++ '\n' :: b) = replaceAux letter mailRe out n p a ++ '\n' :: replaceAux letter mailRe out 0 none b := by
    intro a
    induction a with
    | nil =>
      intro n p hn
      rw [Nat.le_zero.mp hn]
      simp only [List.nil_append]
      rw [hend]
      simp only [replaceAux, List.nil_append]
    | cons c t ih =>
      intro n p hn
      cases n with
      | succ n =>
        simp only [List.cons_append, replaceAux]
        exact ih n _ (by simpa using hn)
      | zero =>
        have hm := hin p c t
        rw [List.cons_append] at hm
        simp only [List.cons_append, replaceAux]
        rw [hm]
        cases h : matchAt letter mailRe p (c :: t) with
        | none => simp [ih 0 (some c) (Nat.zero_le _)]
        | some x =>
          obtain ⟨m, caps⟩ := x
          cases m with
          | zero => simp [ih 0 (some c) (Nat.zero_le _)]
          | succ m =>
            have hle := matchAt_le h
            have hle' : m ≤ t.length := by simpa using hle
            simp only [List.take_succ_cons]
            rw [ih m (some c) hle', List.take_append_of_le_length hle', List.append_assoc]
  exact key a 0 none (Nat.zero_le _)

/-! ## What the first rules do not write -/

/-- A text that can neither contain `f` nor a part of it at one of its ends. -/
def Piece (f m : Text) : Prop := (∃ c t, m = c :: t ∧ c ∉ f) ∧ (∃ t c, m = t ++ [c] ∧ c ∉ f) ∧ ¬ f <:+: m

theorem replaceRe_free {letter : Char → Bool} {r : Re} {out : Text → Caps → Text} {f s : Text} (hf : f ≠ [])
    (h : ∀ p x q caps, Fit letter r p x q [] caps → x <:+: s → Piece f (out x caps)) (hs : ¬ f <:+: s) : ¬ f <:+: replaceRe letter r out s := by
  have := replaceRe_induct (letter := letter) (r := r) (out := out)
    (fun t t' => t <:+: s → (∀ g, (∀ c ∈ g, c ∈ f) → g <+: t' → g <+: t) ∧ ¬ f <:+: t')
    (fun _ => ⟨fun g _ h => h, fun hi => hf (by simpa using hi)⟩)
    (fun c t t' ih hi => by
      obtain ⟨h1, h2⟩ := ih (List.IsInfix.trans (List.suffix_cons c t).isInfix hi)
      have hp : ∀ g, (∀ c ∈ g, c ∈ f) → g <+: c :: t' → g <+: c :: t := by
        intro g hg hp
        cases g with
        | nil => exact List.nil_prefix
        | cons d g =>
          obtain ⟨rfl, hp'⟩ := List.cons_prefix_cons.mp hp
          exact List.cons_prefix_cons.mpr ⟨rfl, h1 g (fun c hc => hg c (List.mem_cons_of_mem _ hc)) hp'⟩
      refine ⟨hp, fun hf' => ?_⟩
      rcases List.infix_cons_iff.mp hf' with hf' | hf'
      · exact hs ((hp f (fun _ h => h) hf').isInfix.trans hi)
      · exact h2 hf')
    (fun p x q caps t' hx hfit ih hi => by
      obtain ⟨h1, h2⟩ := ih (List.IsInfix.trans (List.suffix_append x q).isInfix hi)
      obtain ⟨⟨c, m, e, hc⟩, ⟨m', d, e', hd⟩, hno⟩ := h p x q caps hfit (List.IsInfix.trans (List.prefix_append x q).isInfix hi)
      refine ⟨fun g hg hp => ?_, fun hf' => ?_⟩
      · cases g with
        | nil => exact List.nil_prefix
        | cons b g =>
          rw [e, List.cons_append] at hp
          have := (List.cons_prefix_cons.mp hp).1
          exact absurd (hg b (List.mem_cons_self ..)) (by rw [this]; exact hc)
      · obtain ⟨u, v, huv⟩ := hf'
        rw [List.append_assoc] at huv
        rcases List.append_eq_append_iff.mp huv with ⟨w, h3, h4⟩ | ⟨w, h3, h4⟩
        · -- f begins in the piece
          rcases List.append_eq_append_iff.mp h4 with ⟨z, h5, h6⟩ | ⟨z, h5, h6⟩
          · exact hno ⟨u, z, by rw [h3, h5]; simp⟩
          · cases w with
            | nil =>
              rw [List.nil_append] at h5
              exact h2 ⟨[], v, by rw [h6, h5]; simp⟩
            | cons b w =>
              have hmem : d ∈ b :: w := by
                rw [e'] at h3
                rcases List.eq_nil_or_concat (b :: w) with hw | ⟨w', d', hw⟩
                · cases hw
                · rw [hw, List.concat_eq_append, ← List.append_assoc] at h3
                  have := List.append_inj' h3 rfl
                  have hdd : d = d' := by simpa using this.2
                  rw [hw, hdd]
                  simp
              exact hd (by rw [h5]; exact List.mem_append_left _ hmem)
        · exact h2 ⟨w, v, by rw [h4]; simp⟩)
    s
  exact (this ⟨[], [], by simp⟩).2

/-- The texts of the groups are in the match. -/
theorem fit_groups {letter : Char → Bool} {r : Re} {p : Option Char} {x q : Text} {c c' : Caps} (h : Fit letter r p x q c c') :
    ∀ g ∈ c', g ∈ c ∨ g.2 <:+: x := by
  induction h with
  | eps | cls | bol | eol | edge | none | done => exact fun g hg => .inl hg
  | seq _ _ ih1 ih2 | more _ _ _ ih1 ih2 =>
    intro g hg
    rcases ih2 g hg with hg | hg
    · rcases ih1 g hg with hg | hg
      · exact .inl hg
      · exact .inr (hg.trans (List.prefix_append _ _).isInfix)
    · exact .inr (hg.trans (List.suffix_append _ _).isInfix)
  | left _ ih | right _ ih | one _ ih => exact ih
  | group _ ih =>
    intro g hg
    rcases List.mem_cons.mp hg with rfl | hg
    · exact .inr (List.infix_refl _)
    · exact ih g hg

theorem groupOf_infix {letter : Char → Bool} {r : Re} {p : Option Char} {x q : Text} {caps : Caps} (h : Fit letter r p x q [] caps) (n : Text) : groupOf caps n <:+: x := by
  unfold groupOf
  cases hg : caps.find? (fun g => g.1 == n) with
  | none => exact List.nil_infix
  | some g =>
    rcases fit_groups h g (List.mem_of_find?_eq_some hg) with h | h
    · cases h
    · exact h

/-- One rule. -/
def oneRule (letter : Char → Bool) (parser : Replacement → Text → Text) (i : Nat) (s : Text) : Text :=
  (((generate defaultDelims).drop i).take 1).foldl (applyRule letter parser) s

theorem oneRule_entry {i : Nat} {e : Entry} (he : (table.drop i).take 1 = [e]) (letter : Char → Bool) (parser : Replacement → Text → Text) (s : Text) :
    ∃ r, Compiled r e ∧ oneRule letter parser i s = replaceRe letter e.2.2.2 (output parser r) s := by
  have hlen := congrArg List.length (congrArg (fun l => List.take 1 (List.drop i l)) table_eq)
  simp only [← List.map_drop, ← List.map_take, List.length_map, he] at hlen
  obtain ⟨r, hrule⟩ := List.length_eq_one_iff.mp hlen
  obtain ⟨e', hmem, hc⟩ := rules_compiled i 1 r (by rw [hrule]; exact List.mem_singleton.mpr rfl)
  rw [he] at hmem
  rw [List.mem_singleton.mp hmem] at hc
  refine ⟨r, hc, ?_⟩
  unfold oneRule
  rw [hrule, List.foldl_cons, List.foldl_nil, applyRule_compiled hc]

theorem rule_free {letter : Char → Bool} (parser : Replacement → Text → Text) {i : Nat} {replace : Text}
    (he : ((table.drop i).take 1).map (fun e => (e.2.1, e.2.2.1)) = [(replace, 0)]) {f s : Text} (hf : f ≠ [])
    (h : ∀ caps : Caps, (∀ n, groupOf caps n <:+: s) → Piece f (expand (groupOf caps) replace)) (hs : ¬ f <:+: s) : ¬ f <:+: oneRule letter parser i s := by
  obtain ⟨e, he1⟩ : ∃ e, (table.drop i).take 1 = [e] := List.length_eq_one_iff.mp (by rw [← List.length_map, he]; rfl)
  rw [he1, List.map_cons, List.map_nil] at he
  obtain ⟨h1, h2⟩ := Prod.mk.inj (List.cons.inj he).1
  obtain ⟨r, hc, hr⟩ := oneRule_entry he1 letter parser s
  rw [hr]
  refine replaceRe_free hf (fun p x q caps hfit hx => ?_) hs
  have : output parser r x caps = expand (groupOf caps) replace := by
    unfold output
    rw [if_pos (by rw [hc.2.2.1, h2]), hc.2.1, h1]
  rw [this]
  exact h caps (fun n => (groupOf_infix hfit n).trans hx)

/-! ## The rule of e-mail addresses writes only delimiters -/

theorem doubleFirst_cases (x : Text) : doubleFirst x = x ∨ ∃ u v, x = u ++ '@' :: v ∧ doubleFirst x = u ++ '@' :: '@' :: v := by
  induction x with
  | nil => exact .inl rfl
  | cons c t ih =>
    unfold doubleFirst
    split
    · rename_i h
      subst h
      exact .inr ⟨[], t, rfl, rfl⟩
    · rcases ih with h | ⟨u, v, h1, h2⟩
      · exact .inl (by rw [h])
      · exact .inr ⟨c :: u, v, by rw [h1]; rfl, by rw [h2]; rfl⟩

theorem protectEmail_cases (x : Text) : protectEmail x = x ∨ ∃ u v, x = u ++ '@' :: v ∧ protectEmail x = u ++ '@' :: '@' :: v := by
  unfold protectEmail
  split
  · exact .inl rfl
  · split
    · exact .inl rfl
    · exact doubleFirst_cases _

theorem mail_free {letter : Char → Bool} (parser : Replacement → Text → Text) {f s : Text} (hf : '@' ∉ f) (hs : ¬ f <:+: s) : ¬ f <:+: oneRule letter parser 2 s := by
  obtain ⟨r, hc, hr⟩ := oneRule_entry mail_entry letter parser s
  rw [hr]
  have hout : ∀ x caps, output parser r x caps = protectEmail x := by
    intro x caps
    unfold output
    rw [if_neg (by rw [hc.2.2.1]; decide), if_pos hc.1]
  intro hi
  have := replaceRe_induct (letter := letter) (r := mailRe) (out := output parser r) (fun t t' => ∀ p, f <:+: p ++ t' → f <:+: p ++ t) (fun p h => h)
    (fun c t t' ih p h => by
      have := ih (p ++ [c]) (by simpa using h)
      simpa using this)
    (fun _ x q caps t' _ _ ih p h => by
      rw [hout] at h
      rcases protectEmail_cases x with e | ⟨u, v, e1, e2⟩
      · rw [e, ← List.append_assoc] at h
        rw [← List.append_assoc]
        exact ih _ h
      · rw [e2] at h
        have h' : f <:+: (p ++ u) ++ '@' :: ([] ++ '@' :: (v ++ t')) := by simpa using h
        rw [e1]
        rcases infix_glue hf h' with h' | h'
        · exact h'.trans ⟨[], '@' :: v ++ q, by simp⟩
        · rcases infix_glue hf h' with h' | h'
          · exact h'.trans List.nil_infix
          · exact (ih v h').trans ⟨p ++ u ++ ['@'], [], by simp⟩)
    s []
  exact hs (this hi)

/-! ## The rule of words to wrap -/

/-- What each alternative of an expression needs. -/
def piecesAll : Re → List (List (Option Char))
  | .seq a b => (piecesAll a).flatMap fun l => (piecesAll b).map fun l' => l ++ l'
  | .alt a b => piecesAll a ++ piecesAll b
  | .group _ a => piecesAll a
  | r => [pieces r]

theorem piecesAll_sound {letter : Char → Bool} {r : Re} {p : Option Char} {x q : Text} {c c' : Caps} (h : Fit letter r p x q c c') :
    ∃ l ∈ piecesAll r, Follows l x := by
  induction h with
  | seq _ _ ih₁ ih₂ =>
    obtain ⟨l, hl, h1⟩ := ih₁
    obtain ⟨l', hl', h2⟩ := ih₂
    exact ⟨l ++ l', List.mem_flatMap.mpr ⟨l, hl, List.mem_map.mpr ⟨l', hl', rfl⟩⟩, follows_append h1 h2⟩
  | left _ ih =>
    obtain ⟨l, hl, h1⟩ := ih
    exact ⟨l, List.mem_append_left _ hl, h1⟩
  | right _ ih =>
    obtain ⟨l, hl, h1⟩ := ih
    exact ⟨l, List.mem_append_right _ hl, h1⟩
  | group _ ih => exact ih
  | eps => exact ⟨_, List.mem_singleton.mpr rfl, rfl⟩
  | bol => exact ⟨_, List.mem_singleton.mpr rfl, rfl⟩
  | eol => exact ⟨_, List.mem_singleton.mpr rfl, rfl⟩
  | edge => exact ⟨_, List.mem_singleton.mpr rfl, rfl⟩
  | @cls k p d q c h => exact ⟨_, List.mem_singleton.mpr rfl, pieces_sound (q := q) (p := p) (c := c) (.cls h)⟩
  | none | one | done | more => exact ⟨_, List.mem_singleton.mpr rfl, follows_any _⟩

theorem wrap_idle {letter : Char → Bool} (parser : Replacement → Text → Text) {s : Text} (hs : ¬ c!"rap(" <:+: s) : oneRule letter parser 8 s = s := by
  obtain ⟨e, he⟩ : ∃ e, (table.drop 8).take 1 = [e] := List.length_eq_one_iff.mp (by decide +kernel)
  obtain ⟨r, hc, hr⟩ := oneRule_entry he letter parser s
  rw [hr]
  refine replaceRe_none (fun p x q caps h _ hx => hs ?_)
  obtain ⟨l, hl, hfol⟩ := piecesAll_sound h
  have hall := (by decide +kernel : ∀ e ∈ (table.drop 8).take 1, ∀ l ∈ piecesAll e.2.2.2, hasFactor (c!"rap(".map some) l = true) e
    (by rw [he]; exact List.mem_singleton.mpr rfl) l hl
  obtain ⟨a, b, hab⟩ := hasFactor_infix hall
  rw [← hab, List.append_assoc] at hfol
  obtain ⟨y, hy, hl'⟩ := follows_drop hfol
  exact ((follows_prefix hl').isInfix.trans hy.isInfix).trans hx

/-! ## The rules of comments -/

/-- The beginnings of comments. -/
def commentStarts : List Text := reduceSigns.map fun r => '@' :: (r.1 ++ c!"/*")

theorem pieces_infix {f : Text} {c : Char} {a b : Text} (hc : c ∉ f) (ha : ¬ f <:+: a) (hb : ¬ f <:+: b) : ¬ f <:+: a ++ c :: b := fun h => by
  rcases infix_glue hc h with h | h
  · exact ha h
  · exact hb h

theorem not_infix_short {f a : Text} (hf : f ≠ []) (h : a.all (fun c => !decide (c ∈ f)) = true) : ¬ f <:+: a := by
  intro hi
  cases f with
  | nil => exact hf rfl
  | cons c f =>
    have := List.all_eq_true.mp h c (hi.subset (List.mem_cons_self ..))
    simp at this

theorem line_comment {letter : Char → Bool} (parser : Replacement → Text → Text) {s : Text} (hs : ¬ c!"/*" <:+: s) :
    ∀ f ∈ commentStarts, ¬ f <:+: oneRule letter parser 14 s := by
  intro f hf
  have h1 := (by decide +kernel : ∀ f ∈ commentStarts, f ≠ [] ∧ '{' ∉ f ∧ '}' ∉ f ∧ ' ' ∉ f ∧ ¬ f <:+: c!"/*" ∧ ¬ f <:+: c!"*/" ∧ c!"/*" <:+: f) f hf
  have sub : ∀ {x : Text}, ¬ c!"/*" <:+: x → ¬ f <:+: x := fun hx hi => hx (h1.2.2.2.2.2.2.trans hi)
  refine rule_free parser (replace := c!"{{${reduce1} /* ${line_comment} */ ${reduce2}}}") (by decide +kernel) h1.1 (fun caps hg => ?_) (sub hs)
  have e : expand (groupOf caps) c!"{{${reduce1} /* ${line_comment} */ ${reduce2}}}" =
      '{' :: ('{' :: (groupOf caps c!"reduce1" ++ ' ' :: (c!"/*" ++ ' ' :: (groupOf caps c!"line_comment" ++ ' ' :: (c!"*/" ++ ' ' :: (groupOf caps c!"reduce2" ++ '}' :: ['}'])))))) := by
    unfold expand
    simp [expandAux, Razor.groupName, nameChar, Text.hasPrefix, Text.dropPrefix?]
  have hgr : ∀ n, ¬ c!"/*" <:+: groupOf caps n := fun n hi => hs (hi.trans (hg n))
  rw [e]
  refine ⟨⟨_, _, rfl, h1.2.1⟩, ⟨'{' :: ('{' :: (groupOf caps c!"reduce1" ++ ' ' :: (c!"/*" ++ ' ' :: (groupOf caps c!"line_comment" ++ ' ' :: (c!"*/" ++ ' ' :: (groupOf caps c!"reduce2" ++ ['}'])))))), '}', by simp, h1.2.2.1⟩, ?_⟩
  refine pieces_infix (a := []) h1.2.1 (fun h => h1.1 (by simpa using h)) (pieces_infix (a := []) h1.2.1 (fun h => h1.1 (by simpa using h)) ?_)
  refine pieces_infix h1.2.2.2.1 (sub (hgr _)) (pieces_infix h1.2.2.2.1 h1.2.2.2.2.1 (pieces_infix h1.2.2.2.1 (sub (hgr _)) (pieces_infix h1.2.2.2.1 h1.2.2.2.2.2.1 ?_)))
  exact pieces_infix h1.2.2.1 (sub (hgr _)) (sub (by decide))

theorem block_entry : (table.drop 15).take 1 = [(c!"Block comment - @/* */", c!"{{${reduce1} /*${block_comment}*/ ${reduce2}}}", 0, blockRule)] := by
  decide +kernel

theorem block_comment_idle {letter : Char → Bool} (parser : Replacement → Text → Text) {s : Text} (hs : ∀ f ∈ commentStarts, ¬ f <:+: s) : oneRule letter parser 15 s = s := by
  obtain ⟨r, hc, hr⟩ := oneRule_entry block_entry letter parser s
  rw [hr]
  refine replaceRe_none (fun p x q caps h _ hx => ?_)
  obtain ⟨x, x6, _, rfl, h, _⟩ := fit_seq h
  obtain ⟨x, x5, _, rfl, h, _⟩ := fit_seq h
  obtain ⟨x, x4, _, rfl, h, _⟩ := fit_seq h
  obtain ⟨x, x3, _, rfl, h, h3⟩ := fit_seq h
  obtain ⟨x, x2, _, rfl, h, h2⟩ := fit_seq h
  obtain ⟨x, x1, _, rfl, h, h1⟩ := fit_seq h
  obtain ⟨r, hr, e⟩ := List.mem_map.mp (fit_reduce h1)
  rw [(fit_lit h).1, (fit_lit h2).1, (fit_lit h3).1, ← e] at hx
  refine hs _ (List.mem_map.mpr ⟨r, hr, rfl⟩) (List.IsInfix.trans ⟨[], x4 ++ (x5 ++ x6), by simp⟩ hx)

/-! ## All the rules -/

/-- From a rule on, the parts of a text are translated one by one. -/
def Apart (letter : Char → Bool) (parser : Replacement → Text → Text) (i : Nat) (P : Text → Prop) : Prop :=
  ∀ a b, P (a ++ '\n' :: b) → ((generate defaultDelims).drop i).foldl (applyRule letter parser) (a ++ '\n' :: b) =
    ((generate defaultDelims).drop i).foldl (applyRule letter parser) a ++ '\n' :: ((generate defaultDelims).drop i).foldl (applyRule letter parser) b

theorem apart_step {letter : Char → Bool} (hl : letter '\n' = false) {parser : Replacement → Text → Text} {i : Nat} {P Q : Text → Prop} (h : Apart letter parser (i + 1) Q)
    (hi : ∀ e ∈ (table.drop i).take 1, inLines (fun _ => false) e.2.2.2 = true) (hq : ∀ s, P s → Q (oneRule letter parser i s)) : Apart letter parser i P := by
  intro a b hp
  have hr := rules_lines hl parser i 1 hi a b
  have := hq _ hp
  unfold oneRule at this
  rw [split_rules i 1, split_rules i 1 parser letter a, split_rules i 1 parser letter b]
  rw [hr] at this ⊢
  exact h _ _ this

theorem apart_idle {letter : Char → Bool} {parser : Replacement → Text → Text} {i : Nat} {P : Text → Prop} (h : Apart letter parser (i + 1) P)
    (hi : ∀ s, P s → oneRule letter parser i s = s) (hsub : ∀ s t, P t → s <:+: t → P s) : Apart letter parser i P := by
  intro a b hp
  have h1 := hi _ hp
  have h2 := hi a (hsub _ _ hp ⟨[], '\n' :: b, by simp⟩)
  have h3 := hi b (hsub _ _ hp ⟨a ++ ['\n'], [], by simp⟩)
  unfold oneRule at h1 h2 h3
  rw [split_rules i 1, split_rules i 1 parser letter a, split_rules i 1 parser letter b, h1, h2, h3]
  exact h _ _ hp

theorem apart_end {letter : Char → Bool} (hl : letter '\n' = false) (parser : Replacement → Text → Text) : Apart letter parser 16 (fun _ => True) := by
  intro a b _
  have h : ((generate defaultDelims).drop 16) = ((generate defaultDelims).drop 16).take 149 := by
    rw [List.take_of_length_le]
    simp [generate_length]
  rw [h]
  exact rules_lines hl parser 16 149 (by decide +kernel) a b

def NoComment (s : Text) : Prop := ¬ c!"/*" <:+: s

def NoWrap (s : Text) : Prop := ¬ c!"/*" <:+: s ∧ ¬ c!"rap(" <:+: s

/-- A rule without groups. -/
theorem free_const {letter : Char → Bool} (parser : Replacement → Text → Text) {i : Nat} {replace m : Text} (he : ((table.drop i).take 1).map (fun e => (e.2.1, e.2.2.1)) = [(replace, 0)])
    (hm : ∀ caps, expand (groupOf caps) replace = m) {f s : Text} (hf : f ≠ []) (hp : Piece f m) (hs : ¬ f <:+: s) : ¬ f <:+: oneRule letter parser i s :=
  rule_free parser he hf (fun caps _ => by rw [hm]; exact hp) hs

theorem piece_of {f m : Text} (h : (m.head?.any (fun c => !decide (c ∈ f)) && m.getLast?.any (fun c => !decide (c ∈ f))) = true) (hno : ¬ f <:+: m) : Piece f m := by
  simp only [Bool.and_eq_true] at h
  obtain ⟨h1, h2⟩ := h
  refine ⟨?_, ?_, hno⟩
  · cases m with
    | nil => simp at h1
    | cons c t => exact ⟨c, t, rfl, by simpa using h1⟩
  · rcases List.eq_nil_or_concat m with rfl | ⟨t, c, rfl⟩
    · simp at h2
    · exact ⟨t, c, by simp, by simpa using h2⟩

theorem apart_rules {letter : Char → Bool} (hl : letter '\n' = false) (parser : Replacement → Text → Text) : Apart letter parser 3 NoWrap := by
  have a15 : Apart letter parser 15 (fun s => ∀ f ∈ commentStarts, ¬ f <:+: s) :=
    apart_idle (fun a b _ => apart_end hl parser a b trivial) (fun s h => block_comment_idle parser h) (fun s t ht hi f hf h => ht f hf (h.trans hi))
  have a14 : Apart letter parser 14 NoComment := apart_step hl a15 (by decide +kernel) (fun s h => line_comment parser h)
  have a13 : Apart letter parser 13 NoComment := apart_step hl a14 (by decide +kernel) (fun s h =>
    free_const parser (replace := c!"{{- \"\" }}") (m := c!"{{- \"\" }}") (by decide +kernel) (fun _ => by rfl) (by decide) (piece_of (by decide) (by decide)) h)
  have a12 : Apart letter parser 12 NoComment := apart_idle a13 (fun s h => rules_idle parser 12 1 [c!"/*"] (by decide +kernel) (fun f hf => by rw [List.mem_singleton.mp hf]; exact h))
    (fun s t ht hi h => ht (h.trans hi))
  have a11 : Apart letter parser 11 NoComment := apart_step hl a12 (by decide +kernel) (fun s h =>
    free_const parser (replace := c!"@") (m := c!"@") (by decide +kernel) (fun _ => by rfl) (by decide) (piece_of (by decide) (by decide)) h)
  have a10 : Apart letter parser 10 NoComment := apart_step hl a11 (by decide +kernel) (fun s h =>
    free_const parser (replace := c!"{{- $.NEWLINE }}@") (m := c!"{{- $.NEWLINE }}@") (by decide +kernel)
      (fun _ => by unfold expand; simp [expandAux, Razor.groupName, nameChar, Text.hasPrefix, Text.dropPrefix?]) (by decide) (piece_of (by decide) (by decide)) h)
  have a9 : Apart letter parser 9 NoComment := apart_step hl a10 (by decide +kernel) (fun s h => by
    refine rule_free parser (replace := c!"\"<<@${reduce}(${content})\"") (by decide +kernel) (by decide) (fun caps hg => ?_) h
    have e : expand (groupOf caps) c!"\"<<@${reduce}(${content})\"" = c!"\"<<" ++ '@' :: (groupOf caps c!"reduce" ++ '(' :: (groupOf caps c!"content" ++ ')' :: ['"'])) := by
      unfold expand
      simp [expandAux, Razor.groupName, nameChar, Text.hasPrefix, Text.dropPrefix?]
    rw [e]
    have hgr : ∀ n, ¬ c!"/*" <:+: groupOf caps n := fun n hi => h (hi.trans (hg n))
    exact ⟨⟨'"', _, rfl, by decide⟩, ⟨c!"\"<<" ++ '@' :: (groupOf caps c!"reduce" ++ '(' :: (groupOf caps c!"content" ++ [')'])), '"', by simp, by decide⟩,
      pieces_infix (by decide) (by decide) (pieces_infix (by decide) (hgr _) (pieces_infix (by decide) (hgr _) (by decide)))⟩)
  have a8 : Apart letter parser 8 NoWrap := by
    refine apart_idle (fun a b h => a9 a b h.1) (fun s h => wrap_idle parser h.2) ?_
    exact fun s t ht hi => ⟨fun h => ht.1 (h.trans hi), fun h => ht.2 (h.trans hi)⟩
  have a7 : Apart letter parser 7 NoWrap := apart_step hl a8 (by decide +kernel) (fun s h => by
    have piece : ∀ f ∈ [c!"/*", c!"rap("], ¬ f <:+: s → ¬ f <:+: oneRule letter parser 7 s := by
      intro f hf hs
      have hd := (by decide +kernel : ∀ f ∈ [c!"/*", c!"rap("], f ≠ [] ∧ '@' ∉ f ∧ ' ' ∉ f ∧ '`' ∉ f ∧ ¬ f <:+: c!"@<-spaceIndent(" ∧ ¬ f <:+: c!", ") f hf
      refine rule_free parser (replace := c!"@<-spaceIndent(`${before}`, ") (by decide +kernel) hd.1 (fun caps hg => ?_) hs
      have e : expand (groupOf caps) c!"@<-spaceIndent(`${before}`, " = c!"@<-spaceIndent(" ++ '`' :: (groupOf caps c!"before" ++ '`' :: c!", ") := by
        unfold expand
        simp [expandAux, Razor.groupName, nameChar, Text.hasPrefix, Text.dropPrefix?]
      rw [e]
      exact ⟨⟨'@', _, rfl, hd.2.1⟩, ⟨c!"@<-spaceIndent(" ++ '`' :: (groupOf caps c!"before" ++ '`' :: c!","), ' ', by simp, hd.2.2.1⟩,
        pieces_infix hd.2.2.2.1 hd.2.2.2.2.1 (pieces_infix hd.2.2.2.1 (fun hi => hs (hi.trans (hg _))) hd.2.2.2.2.2)⟩
    exact ⟨piece _ (by decide) h.1, piece _ (by decide) h.2⟩)
  have both : ∀ {i : Nat} {m : Text}, ((table.drop i).take 1).map (fun e => (e.2.1, e.2.2.1)) = [(m, 0)] → (∀ caps, expand (groupOf caps) m = m) →
      Piece c!"/*" m → Piece c!"rap(" m → ∀ s, NoWrap s → NoWrap (oneRule letter parser i s) :=
    fun he hm h1 h2 s h => ⟨free_const parser he hm (by decide) h1 h.1, free_const parser he hm (by decide) h2 h.2⟩
  have a6 : Apart letter parser 6 NoWrap := apart_step hl a7 (by decide +kernel) (both (m := c!"{{- $.NEWLINE }}") (by decide +kernel)
    (fun _ => by unfold expand; simp [expandAux, Razor.groupName, nameChar, Text.hasPrefix, Text.dropPrefix?]) (piece_of (by decide) (by decide)) (piece_of (by decide) (by decide)))
  have a5 : Apart letter parser 5 NoWrap := apart_step hl a6 (by decide +kernel) (both (m := c!"{{ \"{{\" }}") (by decide +kernel) (fun _ => by rfl)
    (piece_of (by decide) (by decide)) (piece_of (by decide) (by decide)))
  have a4 : Apart letter parser 4 NoWrap := apart_step hl a5 (by decide +kernel) (both (m := c!"_=!AT!=_") (by decide +kernel) (fun _ => by rfl)
    (piece_of (by decide) (by decide)) (piece_of (by decide) (by decide)))
  exact apart_step hl a4 (by decide +kernel) (both (m := c!"_=!REPL!=_") (by decide +kernel) (fun _ => by rfl)
    (piece_of (by decide) (by decide)) (piece_of (by decide) (by decide)))

theorem apart_text {letter : Char → Bool} (hl : letter '\n' = false) (parser : Replacement → Text → Text) {a b : Text} (h : NoWrap (a ++ '\n' :: b)) (hb : PlainFirst b) :
    ((generate defaultDelims).drop 2).foldl (applyRule letter parser) (a ++ '\n' :: b) =
      ((generate defaultDelims).drop 2).foldl (applyRule letter parser) a ++ '\n' :: ((generate defaultDelims).drop 2).foldl (applyRule letter parser) b := by
  have hmail : oneRule letter parser 2 (a ++ '\n' :: b) = oneRule letter parser 2 a ++ '\n' :: oneRule letter parser 2 b := by
    have hlen := congrArg List.length (congrArg (fun l => List.take 1 (List.drop 2 l)) table_eq)
    simp only [← List.map_drop, ← List.map_take, List.length_map, mail_entry] at hlen
    obtain ⟨r, hrule⟩ := List.length_eq_one_iff.mp hlen
    obtain ⟨e', hmem, hc⟩ := rules_compiled 2 1 r (by rw [hrule]; exact List.mem_singleton.mpr rfl)
    rw [mail_entry] at hmem
    rw [List.mem_singleton.mp hmem] at hc
    unfold oneRule
    simp only [hrule, List.foldl_cons, List.foldl_nil, applyRule_compiled hc]
    exact mail_lines hl (fun x caps => by unfold output; rw [if_neg (by rw [hc.2.2.1]; decide), if_pos hc.1]) a b hb
  have hw : NoWrap (oneRule letter parser 2 (a ++ '\n' :: b)) := ⟨mail_free parser (by decide) h.1, mail_free parser (by decide) h.2⟩
  rw [hmail] at hw
  have := apart_rules hl parser _ _ hw
  unfold oneRule at hmail this
  rw [split_rules 2 1, split_rules 2 1 parser letter a, split_rules 2 1 parser letter b, hmail]
  exact this

end Verif.Lemmas
