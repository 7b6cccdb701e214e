import Verif.Lemmas.RazorNameAuto
/-!
# The automaton on a text with a variable
-/

namespace Verif.Lemmas
open Verif Regex Spec Engine Razor Table

/-- The meaning of the states before the delimiter. -/
def BeforeMeaning (x : Text) : St → Prop
  | .p => True
  | .h => ∃ u, x = u ++ c!"#"
  | .s1 => ∃ u, x = u ++ c!"/"
  | .s2 => ∃ u, x = u ++ c!"//"
  | .cm => ∃ u m w, m ∈ commentSigns ∧ (∀ c ∈ w, isBlank c = true) ∧ x = u ++ (m ++ w)
  | _ => False

theorem before_nextP {letter : Char → Bool} {x : Text} {c : Char} {k : Kind} (hm : KindMeaning letter c k) (hc : c ≠ '@') :
    BeforeMeaning (x ++ [c]) (nextP k) := by
  cases k <;> simp only [nextP] <;> try trivial
  · subst hm
    exact ⟨x, rfl⟩
  · subst hm
    exact ⟨x, rfl⟩

theorem before_step {letter : Char → Bool} {x : Text} {s : St} {c : Char} (h : BeforeMeaning x s) (hc : c ≠ '@') :
    BeforeMeaning (x ++ [c]) (charNext letter s c) := by
  have hm := kind_meaning letter c
  unfold charNext
  generalize kindOf letter c = k at hm
  cases s with
  | p => exact before_nextP hm hc
  | h =>
    obtain ⟨u, rfl⟩ := h
    simp only [next]
    split
    · subst hm
      exact ⟨u, c!"##", [], by decide, by simp, by simp⟩
    · subst hm
      exact ⟨u, c!"#!", [], by decide, by simp, by simp⟩
    · exact before_nextP hm hc
  | s1 =>
    obtain ⟨u, rfl⟩ := h
    simp only [next]
    split
    · subst hm
      exact ⟨u, by simp⟩
    · exact before_nextP hm hc
  | s2 =>
    obtain ⟨u, rfl⟩ := h
    simp only [next]
    split
    · subst hm
      exact ⟨u, c!"///", [], by decide, by simp, by simp⟩
    · subst hm
      exact ⟨u, c!"//!", [], by decide, by simp, by simp⟩
    · exact before_nextP hm hc
  | cm =>
    obtain ⟨u, m, w, h1, h2, rfl⟩ := h
    simp only [next]
    split
    · exact absurd hm hc
    · refine ⟨u, m, w ++ [c], h1, ?_, by simp⟩
      intro d hd
      rcases List.mem_append.mp hd with hd | hd
      · exact h2 d hd
      · rw [List.mem_singleton.mp hd]
        exact hm
    · exact before_nextP hm hc
  | _ => exact h.elim

theorem before_run {letter : Char → Bool} (y : Text) : ∀ {x : Text} {s : St}, BeforeMeaning x s → '@' ∉ y →
    BeforeMeaning (x ++ y) (y.foldl (charNext letter) s) := by
  induction y with
  | nil =>
    intro x s h _
    simpa using h
  | cons c y ih =>
    intro x s h hy
    rw [List.mem_cons, not_or] at hy
    have := ih (before_step (letter := letter) h (fun hc => hy.1 hc.symm)) hy.2
    simpa using this

theorem kindOf_at (letter : Char → Bool) : kindOf letter '@' = .at := rfl

/-- The delimiter after a text that does not hide it. -/
theorem before_at {letter : Char → Bool} {a : Text} (h1 : NotCommented a) (h2 : '@' ∉ a) :
    charNext letter (a.foldl (charNext letter) .p) '@' = .a := by
  have := before_run (letter := letter) a (x := []) (s := .p) trivial h2
  generalize a.foldl (charNext letter) .p = s at this
  unfold charNext
  rw [kindOf_at]
  cases s with
  | p | h | s1 | s2 => rfl
  | cm =>
    obtain ⟨u, m, w, hm, hw, he⟩ := this
    exact absurd he (h1 u m w hm hw)
  | _ => exact this.elim

/-- The meaning of the states in a name. -/
def NameMeaning (u : Text) : St → Prop
  | .a | .m1 | .m2 | .u1 | .u2 => u = []
  | .ne => u = c!"e"
  | .nel => u = c!"el"
  | .nels => u = c!"els"
  | .nen => u = c!"en"
  | .nf => u = c!"f"
  | .nfo => u = c!"fo"
  | .nfor => u = c!"for"
  | .nm => True
  | .bad => c!"else" <+: u ∨ c!"end" <+: u
  | _ => False

/-- The kinds of the characters of names. -/
def Kind.inName (k : Kind) : Bool := k.isLetter || k == .digit || k == .under

theorem varChar_kind {letter : Char → Bool} (hl : PlainLetters letter) {c : Char} (h : varChar letter c = true) : (kindOf letter c).inName = true := by
  simp only [varChar, Bool.or_eq_true, beq_iff_eq] at h
  rcases h with (h | h) | h
  · have : (kindOf letter c).isLetter = true := itemMay_sound hl (i := .letter) h
    simp [Kind.inName, this]
  · have : (kindOf letter c == .digit) = true := itemMay_sound hl (i := .digit) h
    simp [Kind.inName, this]
  · subst h
    rfl

theorem kind_varChar {letter : Char → Bool} (hl : PlainLetters letter) {c : Char} (h : (kindOf letter c).inName = true) : varChar letter c = true := by
  have hm := kind_meaning letter c
  generalize kindOf letter c = k at h hm
  cases k <;> simp only [Kind.inName, Kind.isLetter] at h <;> try (cases h; done)
  case letter =>
    simp [varChar, show letter c = true from hm]
  case digit =>
    simp [varChar, show c.isDigit = true from hm]
  all_goals
    have h128 : c.toNat < 128 := by
      rw [show c = _ from hm]
      decide
    have hc : (c.isAlpha || c.isDigit || c == '_') = true := by
      rw [show c = _ from hm]
      decide
    unfold varChar
    rw [hl.1 c h128]
    exact hc

theorem name_nextN {k : Kind} (hk : k.inName = true) : nextN k = .nm := by
  cases k <;> first | rfl | cases hk

theorem name_step {letter : Char → Bool} {u : Text} {s : St} {c : Char} (h : NameMeaning u s) (hk : (kindOf letter c).inName = true)
    (ha : u = [] → (kindOf letter c).isLetter = true) : NameMeaning (u ++ [c]) (charNext letter s c) := by
  have hm := kind_meaning letter c
  unfold charNext
  generalize kindOf letter c = k at hm hk ha
  have hn : NameMeaning (u ++ [c]) (nextN k) := by
    rw [name_nextN hk]
    trivial
  cases s with
  | a | m1 | m2 | u1 | u2 =>
    have ha := ha h
    rw [show u = [] from h]
    cases k <;> first | (cases ha; done) | trivial | (subst hm; rfl)
  | ne =>
    subst h
    simp only [next]
    split
    · subst hm
      rfl
    · subst hm
      rfl
    · exact hn
  | nel =>
    subst h
    simp only [next]
    split
    · subst hm
      rfl
    · exact hn
  | nels =>
    subst h
    simp only [next]
    split
    · subst hm
      exact .inl ⟨[], rfl⟩
    · exact hn
  | nen =>
    subst h
    simp only [next]
    split
    · subst hm
      exact .inr ⟨[], rfl⟩
    · exact hn
  | nf =>
    subst h
    simp only [next]
    split
    · subst hm
      rfl
    · exact hn
  | nfo =>
    subst h
    simp only [next]
    split
    · subst hm
      rfl
    · exact hn
  | nfor =>
    cases k <;> first | (cases hk; done) | trivial
  | nm => exact hn
  | bad =>
    rcases h with h | h
    · exact .inl (h.trans (List.prefix_append u [c]))
    · exact .inr (h.trans (List.prefix_append u [c]))
  | _ => exact h.elim

theorem name_run {letter : Char → Bool} (hl : PlainLetters letter) (y : Text) : ∀ {u : Text} {s : St}, NameMeaning u s →
    (∀ c ∈ y, varChar letter c = true) → (u = [] → ∃ c t, y = c :: t ∧ letter c = true) →
    NameMeaning (u ++ y) (y.foldl (charNext letter) s) := by
  induction y with
  | nil =>
    intro u s h _ _
    simpa using h
  | cons c y ih =>
    intro u s h hy ha
    have h1 := name_step (letter := letter) (c := c) h (varChar_kind hl (hy c (List.mem_cons_self ..))) (by
      intro hu
      obtain ⟨c', t, he, hc'⟩ := ha hu
      cases he
      exact itemMay_sound hl (i := .letter) hc')
    have := ih h1 (fun d hd => hy d (List.mem_cons_of_mem _ hd)) (by simp)
    simpa using this

/-- The states after a name. -/
def afterName : St → Bool
  | .ne | .nel | .nels | .nen | .nf | .nfo | .nm | .d => true
  | _ => false

/-- The states after the signs. -/
theorem sign_state (letter : Char → Bool) {r : Text × Text × Text} (h : r ∈ reduceSigns) :
    NameMeaning [] (r.1.foldl (charNext letter) .a) ∧ ('_' ∉ r.1 → ∀ t, ('$' :: t).foldl (charNext letter) (r.1.foldl (charNext letter) .a) =
      t.foldl (charNext letter) .d) := by
  simp only [reduceSigns, List.mem_cons, List.not_mem_nil, or_false] at h
  rcases h with rfl | rfl | rfl | rfl | rfl
  · exact ⟨rfl, fun _ _ => rfl⟩
  · exact ⟨rfl, fun _ _ => rfl⟩
  · exact ⟨rfl, fun _ _ => rfl⟩
  · exact ⟨rfl, fun h => absurd (by decide) h⟩
  · exact ⟨rfl, fun h => absurd (by decide) h⟩

theorem local_run {letter : Char → Bool} (hl : PlainLetters letter) (y : Text) (hy : ∀ c ∈ y, varChar letter c = true ∨ c = '.') :
    y.foldl (charNext letter) .d = .d := by
  induction y with
  | nil => rfl
  | cons c y ih =>
    have : charNext letter .d c = .d := by
      unfold charNext
      rcases hy c (List.mem_cons_self ..) with h | rfl
      · have := varChar_kind hl h
        generalize kindOf letter c = k at this
        cases k <;> first | rfl | cases this
      · rfl
    rw [List.foldl_cons, this]
    exact ih (fun d hd => hy d (List.mem_cons_of_mem _ hd))

theorem name_end {letter : Char → Bool} (hl : PlainLetters letter) {name : Text} (h : VarName letter name) {s : St} (hs : NameMeaning [] s) :
    afterName (name.foldl (charNext letter) s) = true := by
  have hm := name_run hl name (u := []) (s := s) hs h.chars (fun _ => h.first)
  rw [List.nil_append] at hm
  generalize name.foldl (charNext letter) s = s at hm
  cases s with
  | a | m1 | m2 | u1 | u2 =>
    obtain ⟨c, t, he, _⟩ := h.first
    rw [show name = [] from hm] at he
    cases he
  | nfor => exact absurd hm h.notFor
  | bad =>
    rcases hm with hm | hm
    · exact absurd hm h.notElse
    · exact absurd hm h.notEnd
  | ne | nel | nels | nen | nf | nfo | nm => rfl
  | _ => exact hm.elim

/-- After a variable. -/
theorem printed_end {letter : Char → Bool} (hl : PlainLetters letter) {v code : Text} (h : Printed letter v code) :
    afterName (v.foldl (charNext letter) .a) = true := by
  cases h with
  | global r name hr hn =>
    rw [List.foldl_append]
    exact name_end hl hn (sign_state letter hr).1
  | «local» r name hr hu hn =>
    obtain ⟨t, rfl, ht⟩ := hn
    rw [List.foldl_append, (sign_state letter hr).2 hu, local_run hl t ht]
    rfl

theorem afterName_next {s : St} (h : afterName s = true) {k : Kind} (hk : k.inName = false) (hd : k ≠ .dot) : next s k = next .nm k := by
  cases s <;> first | (cases h; done) | (cases k <;> first | (cases hk; done) | rfl | exact absurd rfl hd)

/-- The meaning of the states after a name. -/
def AfterMeaning (letter : Char → Bool) (v : Text) : St → Prop
  | .nm => v = []
  | .w => ∀ c ∈ v, wideChar letter c = true
  | .wh => (∀ c ∈ v, wideChar letter c = true) ∧ ∃ u, v = u ++ c!"#"
  | .wc => (∀ c ∈ v, wideChar letter c = true) ∧ ∃ u m, m ∈ commentSigns ∧ v = u ++ m
  | .b => ∀ c ∈ v, isBlank c = true
  | .wb => ∃ f w, v = f ++ w ∧ (∀ c ∈ f, wideChar letter c = true) ∧ ∀ c ∈ w, isBlank c = true
  | .wbc => (∃ f w, v = f ++ w ∧ (∀ c ∈ f, wideChar letter c = true) ∧ ∀ c ∈ w, isBlank c = true) ∧ BeforeMeaning v .cm
  | .o => ∃ f w o, v = f ++ (w ++ o) ∧ (∀ c ∈ f, wideChar letter c = true) ∧ (∀ c ∈ w, isBlank c = true) ∧ o ++ ['='] ∈ assignSigns
  | .os => ∃ f w, v = f ++ (w ++ ['/']) ∧ (∀ c ∈ f, wideChar letter c = true) ∧ ∀ c ∈ w, isBlank c = true
  | .lt => ∃ f w, v = f ++ (w ++ ['<']) ∧ (∀ c ∈ f, wideChar letter c = true) ∧ ∀ c ∈ w, isBlank c = true
  | .gt => ∃ f w, v = f ++ (w ++ ['>']) ∧ (∀ c ∈ f, wideChar letter c = true) ∧ ∀ c ∈ w, isBlank c = true
  | .am => ∃ f w, v = f ++ (w ++ ['&']) ∧ (∀ c ∈ f, wideChar letter c = true) ∧ ∀ c ∈ w, isBlank c = true
  | s => BeforeMeaning v s

theorem after_of_before {letter : Char → Bool} {v : Text} {s : St} (h : BeforeMeaning v s) : AfterMeaning letter v s := by
  cases s <;> first | exact h | exact h.elim

theorem after_wide {letter : Char → Bool} {f w : Text} {c : Char} {k : Kind} (hm : KindMeaning letter c k) (hf : ∀ c ∈ f, wideChar letter c = true)
    (hw : ∀ c ∈ w, isBlank c = true) :
    (k = .lt → AfterMeaning letter (f ++ w ++ [c]) .lt) ∧ (k = .gt → AfterMeaning letter (f ++ w ++ [c]) .gt) ∧
    (k = .amp → AfterMeaning letter (f ++ w ++ [c]) .am) ∧ (k = .slash → AfterMeaning letter (f ++ w ++ [c]) .os) ∧
    (k = .minus ∨ k = .star ∨ k = .caret ∨ k = .op → AfterMeaning letter (f ++ w ++ [c]) .o) := by
  refine ⟨?_, ?_, ?_, ?_, ?_⟩
  · rintro rfl
    exact ⟨f, w, by rw [show c = '<' from hm]; simp, hf, hw⟩
  · rintro rfl
    exact ⟨f, w, by rw [show c = '>' from hm]; simp, hf, hw⟩
  · rintro rfl
    exact ⟨f, w, by rw [show c = '&' from hm]; simp, hf, hw⟩
  · rintro rfl
    exact ⟨f, w, by rw [show c = '/' from hm]; simp, hf, hw⟩
  · intro hk
    refine ⟨f, w, [c], by simp, hf, hw, ?_⟩
    rcases hk with rfl | rfl | rfl | rfl
    · rw [show c = '-' from hm]
      decide
    · have : ∀ c ∈ ['*', '+', '%', '~'], [c] ++ ['='] ∈ assignSigns := by decide
      exact this c hm
    · rw [show c = '^' from hm]
      decide
    · have : ∀ c ∈ [':', '÷', '|', '«', '»'], [c] ++ ['='] ∈ assignSigns := by decide
      exact this c hm

theorem wide_of_kind {letter : Char → Bool} (hl : PlainLetters letter) {c : Char}
    (h : (kindOf letter c).inName = true ∨ kindOf letter c ∈ [Kind.minus, .dot, .hash, .bang, .star]) : wideChar letter c = true := by
  rcases h with h | h
  · simp [wideChar, kind_varChar hl h]
  · have hm := kind_meaning letter c
    generalize kindOf letter c = k at h hm
    simp only [List.mem_cons, List.not_mem_nil, or_false] at h
    rcases h with rfl | rfl | rfl | rfl | rfl
    · rw [show c = '-' from hm]
      simp [wideChar]
    · rw [show c = '.' from hm]
      simp [wideChar]
    · rw [show c = '#' from hm]
      simp [wideChar]
    · rw [show c = '!' from hm]
      simp [wideChar]
    · have : ∀ c ∈ ['*', '+', '%', '~'], c ∈ c!"+*%#!~.-" := by decide
      simp only [wideChar, Bool.or_eq_true, decide_eq_true_eq]
      exact .inr (this c hm)

theorem forall_snoc {P : Char → Prop} {v : Text} {c : Char} (h : ∀ d ∈ v, P d) (hc : P c) : ∀ d ∈ v ++ [c], P d := by
  intro d hd
  rcases List.mem_append.mp hd with hd | hd
  · exact h d hd
  · rw [List.mem_singleton.mp hd]
    exact hc

theorem after_step {letter : Char → Bool} (hl : PlainLetters letter) {b v : Text} (he : Ends letter b) {s : St} {c : Char} (h : AfterMeaning letter v s)
    (hv : v ++ [c] <+: b) (hc : c ≠ '@') : AfterMeaning letter (v ++ [c]) (charNext letter s c) := by
  have hbefore := before_step (letter := letter) (x := v) (s := s) (c := c)
  have hm := kind_meaning letter c
  have hwide := wide_of_kind hl (c := c)
  have hvar := kind_varChar hl (c := c)
  obtain ⟨rest, hrest⟩ := hv
  unfold charNext at hbefore ⊢
  generalize kindOf letter c = k at hm hwide hvar hbefore
  have assign : ∀ {f w o : Text}, v = f ++ (w ++ o) → (∀ c ∈ f, wideChar letter c = true) → (∀ c ∈ w, isBlank c = true) → o ++ [c] ∈ assignSigns → False := by
    intro f w o hv hf hw ho
    refine he.noAssign f w (o ++ [c]) rest hf hw ho ?_
    rw [← hrest, hv]
    simp
  have index : (∀ c ∈ v, wideChar letter c = true) → c = '[' → False := by
    intro hf hc
    subst hc
    refine he.noIndex v rest hf ?_
    rw [← hrest]
    simp
  have inWide : (∀ c ∈ v, wideChar letter c = true) → AfterMeaning letter (v ++ [c]) (nextW k) := by
    intro h
    have ops := after_wide (f := v) (w := []) hm h (by simp)
    rw [List.append_nil] at ops
    cases k <;> simp only [nextW] <;> first
      | trivial
      | exact absurd hm hc
      | exact (index h hm).elim
      | (refine (assign (f := v) (w := []) (o := []) (by simp) h (by simp) ?_).elim; rw [show c = '=' from hm]; decide)
      | exact ops.1 rfl
      | exact ops.2.1 rfl
      | exact ops.2.2.1 rfl
      | exact ops.2.2.2.1 rfl
      | exact ops.2.2.2.2 (by simp)
      | exact forall_snoc h (hwide (.inl rfl))
      | exact forall_snoc h (hwide (.inr (by decide)))
      | exact ⟨v, [c], rfl, h, fun d hd => by rw [List.mem_singleton.mp hd]; exact hm⟩
      | exact ⟨forall_snoc h (hwide (.inr (by decide))), v, by rw [show c = '#' from hm]⟩
  have inBlanks : ∀ {f w : Text}, v = f ++ w → (∀ c ∈ f, wideChar letter c = true) → (∀ c ∈ w, isBlank c = true) →
      AfterMeaning letter (v ++ [c]) (nextB k) := by
    intro f w hfw hf hw
    have ops := after_wide (f := f) (w := w) hm hf hw
    rw [← hfw] at ops
    cases k <;> simp only [nextB, nextP] <;> first
      | trivial
      | exact absurd hm hc
      | (refine (assign (f := f) (w := w) (o := []) (by simpa using hfw) hf hw ?_).elim; rw [show c = '=' from hm]; decide)
      | exact ops.1 rfl
      | exact ops.2.1 rfl
      | exact ops.2.2.1 rfl
      | exact ops.2.2.2.1 rfl
      | exact ops.2.2.2.2 (by simp)
      | exact ⟨v, by rw [show c = '#' from hm]⟩
  cases s with
  | nm =>
    subst h
    have hnext := he.next c (by rw [← hrest]; rfl)
    have ops := after_wide (f := []) (w := []) hm (by simp) (by simp)
    cases k <;> simp only [next, nextN] <;> first
      | trivial
      | exact absurd hm hc
      | (have := hvar rfl; rw [hnext.1] at this; cases this; done)
      | (rw [show c = _ from hm] at hnext; exact absurd hnext.2 (by decide))
      | exact (index (by simp) hm).elim
      | (refine (assign (f := []) (w := []) (o := []) rfl (by simp) (by simp) ?_).elim; rw [show c = '=' from hm]; decide)
      | exact ops.1 rfl
      | exact ops.2.1 rfl
      | exact ops.2.2.1 rfl
      | exact ops.2.2.2.1 rfl
      | exact ops.2.2.2.2 (by simp)
      | exact forall_snoc (by simp) (hwide (by simp))
      | exact forall_snoc (by simp) hm
      | exact ⟨forall_snoc (by simp) (hwide (.inr (by decide))), [], by rw [show c = '#' from hm]⟩
  | w => exact inWide h
  | wh =>
    obtain ⟨h, u, hu⟩ := h
    simp only [next]
    split
    · exact ⟨forall_snoc h (hwide (.inr (by decide))), u, c!"##", by decide, by rw [hu, show c = '#' from hm]; simp⟩
    · exact ⟨forall_snoc h (hwide (.inr (by decide))), u, c!"#!", by decide, by rw [hu, show c = '!' from hm]; simp⟩
    · exact inWide h
  | wc =>
    obtain ⟨h, u, m, hmem, hu⟩ := h
    simp only [next]
    split
    · exact absurd hm hc
    · have hb : ∀ d ∈ [c], isBlank d = true := fun d hd => by rw [List.mem_singleton.mp hd]; exact hm
      exact ⟨⟨v, [c], rfl, h, hb⟩, u, m, [c], hmem, hb, by rw [hu]; simp⟩
    · exact inWide h
  | b =>
    simp only [next]
    split
    · exact forall_snoc h hm
    · refine (he.noCall v rest h ?_).elim
      rw [← hrest, show c = '(' from hm]
      simp
    · exact inBlanks (f := []) (w := v) rfl (by simp) h
  | wb =>
    obtain ⟨f, w, hfw, hf, hw⟩ := h
    simp only [next]
    split
    · exact ⟨f, w ++ [c], by rw [hfw, List.append_assoc], hf, forall_snoc hw hm⟩
    · exact inBlanks hfw hf hw
  | wbc =>
    obtain ⟨⟨f, w, hfw, hf, hw⟩, hcm⟩ := h
    simp only [next]
    split
    · exact absurd hm hc
    · obtain ⟨u, m, w', h1, h2, h3⟩ := hcm
      exact ⟨⟨f, w ++ [c], by rw [hfw, List.append_assoc], hf, forall_snoc hw hm⟩, u, m, w' ++ [c], h1, forall_snoc h2 hm, by rw [h3]; simp⟩
    · exact inBlanks hfw hf hw
  | o =>
    obtain ⟨f, w, o, hfw, hf, hw, ho⟩ := h
    simp only [next]
    split
    · refine (assign hfw hf hw ?_).elim
      rw [show c = '=' from hm]
      exact ho
    · exact after_of_before (before_nextP hm hc)
  | os =>
    obtain ⟨f, w, hfw, hf, hw⟩ := h
    simp only [next]
    split
    · refine (assign hfw hf hw ?_).elim
      rw [show c = '=' from hm]
      decide
    · exact ⟨f ++ w, by rw [hfw, show c = '/' from hm]; simp⟩
    · exact after_of_before (before_nextP hm hc)
  | lt =>
    obtain ⟨f, w, hfw, hf, hw⟩ := h
    simp only [next]
    split
    · exact ⟨f, w, c!"<<", by rw [hfw, show c = '<' from hm]; simp, hf, hw, by decide⟩
    · exact after_of_before (before_nextP hm hc)
  | gt =>
    obtain ⟨f, w, hfw, hf, hw⟩ := h
    simp only [next]
    split
    · exact ⟨f, w, c!">>", by rw [hfw, show c = '>' from hm]; simp, hf, hw, by decide⟩
    · exact after_of_before (before_nextP hm hc)
  | am =>
    obtain ⟨f, w, hfw, hf, hw⟩ := h
    simp only [next]
    split
    · refine (assign hfw hf hw ?_).elim
      rw [show c = '=' from hm]
      decide
    · exact ⟨f, w, c!"&^", by rw [hfw, show c = '^' from hm]; simp, hf, hw, by decide⟩
    · exact after_of_before (before_nextP hm hc)
  | p => exact after_of_before (hbefore h hc)
  | h => exact after_of_before (hbefore h hc)
  | s1 => exact after_of_before (hbefore h hc)
  | s2 => exact after_of_before (hbefore h hc)
  | cm => exact after_of_before (hbefore h hc)
  | _ => exact h.elim

theorem after_run {letter : Char → Bool} (hl : PlainLetters letter) {b : Text} (he : Ends letter b) (y : Text) : ∀ {v : Text} {s : St},
    AfterMeaning letter v s → v ++ y <+: b → '@' ∉ y → AfterMeaning letter (v ++ y) (y.foldl (charNext letter) s) := by
  induction y with
  | nil =>
    intro v s h _ _
    simpa using h
  | cons c y ih =>
    intro v s h hv hy
    rw [List.mem_cons, not_or] at hy
    have hv' : v ++ [c] ++ y <+: b := by simpa using hv
    have h1 := after_step hl he h ((List.prefix_append _ y).trans hv') (fun hc => hy.1 hc.symm)
    have := ih h1 hv' hy.2
    simpa using this

/-- After a name, the automaton reads what follows. -/
theorem after_text {letter : Char → Bool} (hl : PlainLetters letter) {b : Text} (he : Ends letter b) {y : Text} (hy : y <+: b) (hat : '@' ∉ y) (hne : y ≠ [])
    {s : St} (hs : afterName s = true) : AfterMeaning letter y (y.foldl (charNext letter) s) := by
  cases y with
  | nil => exact absurd rfl hne
  | cons c y =>
    have hnm : charNext letter s c = charNext letter .nm c := by
      unfold charNext
      obtain ⟨rest, hrest⟩ := hy
      have := he.next c (by rw [← hrest]; rfl)
      refine afterName_next hs ?_ ?_
      · rw [Bool.eq_false_iff]
        intro hk
        rw [kind_varChar hl hk] at this
        cases this.1
      · intro hk
        have hm := kind_meaning letter c
        rw [hk] at hm
        rw [show c = '.' from hm] at this
        exact this.2 (by decide)
    rw [List.foldl_cons, hnm, ← List.foldl_cons]
    exact after_run hl he (c :: y) (v := []) (s := .nm) rfl hy hat

/-- The delimiter after a text that follows a name. -/
theorem after_at {letter : Char → Bool} {v : Text} {s : St} (h : AfterMeaning letter v s) (hne : v ≠ []) (hn : NotCommented v) :
    charNext letter s '@' = .a := by
  unfold charNext
  rw [kindOf_at]
  cases s with
  | nm => exact absurd h hne
  | wc =>
    obtain ⟨_, u, m, hm, hv⟩ := h
    exact absurd (by rw [hv]; simp) (hn u m [] hm (by simp))
  | wbc =>
    obtain ⟨_, u, m, w, hm, hw, hv⟩ := h
    exact absurd hv (hn u m w hm hw)
  | cm =>
    obtain ⟨u, m, w, hm, hw, hv⟩ := h
    exact absurd hv (hn u m w hm hw)
  | p | h | s1 | s2 | w | wh | wb | b | o | os | lt | gt | am => rfl
  | _ => exact h.elim

theorem bad_stays (letter : Char → Bool) (y : Text) : y.foldl (charNext letter) .bad = .bad := by
  induction y with
  | nil => rfl
  | cons c y ih => exact ih

/-! ## Texts with variables -/

/-- A text with any number of variables, as the automaton reads it. -/
inductive Source (letter : Char → Bool) : Text → Prop
  | plain {a : Text} : '@' ∉ a → Source letter a
  | var {a v code rest : Text} : '@' ∉ a → NotCommented a → Printed letter v code → Ends letter rest → rest.head? ≠ some '@' → Source letter rest →
      Source letter (a ++ '@' :: (v ++ rest))

theorem notCommented_suffix {a b : Text} (h : NotCommented (a ++ b)) : NotCommented b := by
  intro u m w hm hw he
  exact h (a ++ u) m w hm hw (by rw [he]; simp)

/-- From the beginning, or after a name, the automaton does not go wrong. -/
theorem source_run {letter : Char → Bool} (hl : PlainLetters letter) {t : Text} (h : Source letter t) :
    t.foldl (charNext letter) .p ≠ .bad ∧
    ∀ s, afterName s = true → Ends letter t → t.head? ≠ some '@' → t.foldl (charNext letter) s ≠ .bad := by
  induction h with
  | @plain a ha =>
    constructor
    · intro h
      have := before_run (letter := letter) a (x := []) (s := .p) trivial ha
      rw [h] at this
      exact this
    · intro s hs he _
      cases a with
      | nil =>
        intro h
        rw [show s = .bad from h] at hs
        cases hs
      | cons c a =>
        have := after_text hl he (List.prefix_refl _) ha (by simp) hs
        intro h
        rw [h] at this
        exact this
  | @var a v code rest ha hc hn he hh hsrc ih =>
    constructor
    · rw [List.foldl_append, List.foldl_cons, before_at hc ha, List.foldl_append]
      exact ih.2 _ (printed_end hl hn) he hh
    · intro s hs he' hh'
      have hne : a ≠ [] := by
        rintro rfl
        exact hh' rfl
      have := after_text hl he' (List.prefix_append a _) ha hne hs
      rw [List.foldl_append, List.foldl_cons, after_at this hne hc, List.foldl_append]
      exact ih.2 _ (printed_end hl hn) he hh

/-- The kinds of the characters of variables and of the signs before them. -/
def Kind.inToken (k : Kind) : Bool := k.inName || k == .minus || k == .dot || k == .dollar

theorem sign_kinds (letter : Char → Bool) {r : Text × Text × Text} (h : r ∈ reduceSigns) : ∀ c ∈ r.1, (kindOf letter c).inToken = true := by
  have key : ∀ c ∈ c!"_-", (kindOf letter c).inToken = true := by
    intro c hc
    simp only [List.mem_cons, List.not_mem_nil, or_false] at hc
    rcases hc with rfl | rfl <;> rfl
  intro c hc
  apply key
  revert c
  revert r
  decide

theorem printed_kinds {letter : Char → Bool} (hl : PlainLetters letter) {v code : Text} (h : Printed letter v code) :
    ∀ c ∈ v, (kindOf letter c).inToken = true := by
  have var : ∀ {c : Char}, varChar letter c = true → (kindOf letter c).inToken = true := by
    intro c hc
    simp [Kind.inToken, varChar_kind hl hc]
  intro c hc
  cases h with
  | global r name hr hn =>
    rcases List.mem_append.mp hc with hc | hc
    · exact sign_kinds letter hr c hc
    · exact var (hn.chars c hc)
  | «local» r name hr hu hn =>
    obtain ⟨t, rfl, ht⟩ := hn
    rcases List.mem_append.mp hc with hc | hc
    · exact sign_kinds letter hr c hc
    · rcases List.mem_cons.mp hc with rfl | hc
      · rfl
      · rcases ht c hc with h | rfl
        · exact var h
        · rfl

theorem name_in_p {letter : Char → Bool} (y : Text) (hy : ∀ c ∈ y, (kindOf letter c).inToken = true) : y.foldl (charNext letter) .p = .p := by
  induction y with
  | nil => rfl
  | cons c y ih =>
    have : charNext letter .p c = .p := by
      have := hy c (List.mem_cons_self ..)
      unfold charNext
      generalize kindOf letter c = k at this
      cases k <;> first | rfl | cases this
    rw [List.foldl_cons, this]
    exact ih (fun d hd => hy d (List.mem_cons_of_mem _ hd))

/-- From any place of the text, the automaton does not go wrong. -/
theorem source_suffix {letter : Char → Bool} (hl : PlainLetters letter) {t : Text} (h : Source letter t) :
    ∀ u x, t = u ++ x → x.foldl (charNext letter) .p ≠ .bad := by
  induction h with
  | @plain a ha =>
    rintro u x rfl
    exact (source_run hl (.plain (fun h => ha (List.mem_append_right _ h)))).1
  | @var a v code rest ha hc hn he hh hsrc ih =>
    intro u x hux
    rcases List.append_eq_append_iff.mp hux with ⟨u', h1, h2⟩ | ⟨a', h1, h2⟩
    · cases u' with
      | nil =>
        rw [List.nil_append] at h2
        rw [← h2]
        exact (source_run hl (.var (a := []) (by simp) (notCommented_suffix (a := a) (by simpa using hc)) hn he hh hsrc)).1
      | cons d u' =>
        simp only [List.cons_append, List.cons.injEq] at h2
        rcases List.append_eq_append_iff.mp h2.2 with ⟨w, h3, h4⟩ | ⟨w, h3, h4⟩
        · exact ih w x h4
        · rw [h4, List.foldl_append, name_in_p w (fun c hm => printed_kinds hl hn c (by rw [h3]; exact List.mem_append_right _ hm))]
          exact (source_run hl hsrc).1
    · rw [h2]
      rw [h1] at hc ha
      exact (source_run hl (.var (fun h => ha (List.mem_append_right _ h)) (notCommented_suffix hc) hn he hh hsrc)).1

/-- No part of a text with variables leads to `bad`. -/
theorem not_bad {letter : Char → Bool} (hl : PlainLetters letter) {t : Text} (h : Source letter t) {x : Text} (hx : x <:+: t) :
    x.foldl (charNext letter) .p ≠ .bad := by
  obtain ⟨u, v, huv⟩ := hx
  have := source_suffix hl h u (x ++ v) (by rw [← huv, List.append_assoc])
  rw [List.foldl_append] at this
  intro hb
  rw [hb, bad_stays] at this
  exact this rfl

end Verif.Lemmas
