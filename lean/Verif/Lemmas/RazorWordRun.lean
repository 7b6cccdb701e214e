import Verif.Lemmas.RazorWordAuto
/-!
# The automaton on a text with variables, else and end
-/

namespace Verif.Lemmas
open Verif Regex Spec Engine Razor Table

/-- The meaning of the states before a delimiter. -/
def WBefore (x : Text) : WSt → Prop
  | .p => True
  | .h => ∃ u, x = u ++ c!"#"
  | .s1 => ∃ u, x = u ++ c!"/"
  | .s2 => ∃ u, x = u ++ c!"//"
  | .cm => ∃ u m w, m ∈ commentSigns ∧ (∀ c ∈ w, isBlank c = true) ∧ x = u ++ (m ++ w)
  | _ => False

theorem wbefore_P {letter : Char → Bool} {x : Text} {c : Char} {k : Kind} (hm : KindMeaning letter c k) (hc : c ≠ '@') :
    WBefore (x ++ [c]) (wordP k) := by
  cases k <;> simp only [wordP] <;> try trivial
  · subst hm
    exact ⟨x, rfl⟩
  · subst hm
    exact ⟨x, rfl⟩

theorem wbefore_step {letter : Char → Bool} {x : Text} {s : WSt} {c : Char} (h : WBefore x s) (hc : c ≠ '@') :
    WBefore (x ++ [c]) (wordCharNext letter s c) := by
  have hm := kind_meaning letter c
  unfold wordCharNext
  generalize kindOf letter c = k at hm
  cases s with
  | p => exact wbefore_P hm hc
  | h =>
    obtain ⟨u, rfl⟩ := h
    simp only [wordNext]
    split
    · subst hm
      exact ⟨u, c!"##", [], by decide, by simp, by simp⟩
    · subst hm
      exact ⟨u, c!"#!", [], by decide, by simp, by simp⟩
    · exact wbefore_P hm hc
  | s1 =>
    obtain ⟨u, rfl⟩ := h
    simp only [wordNext]
    split
    · subst hm
      exact ⟨u, by simp⟩
    · exact wbefore_P hm hc
  | s2 =>
    obtain ⟨u, rfl⟩ := h
    simp only [wordNext]
    split
    · subst hm
      exact ⟨u, c!"///", [], by decide, by simp, by simp⟩
    · subst hm
      exact ⟨u, c!"//!", [], by decide, by simp, by simp⟩
    · exact wbefore_P hm hc
  | cm =>
    obtain ⟨u, m, w, h1, h2, rfl⟩ := h
    simp only [wordNext]
    split
    · exact absurd hm hc
    · exact ⟨u, m, w ++ [c], h1, forall_snoc h2 hm, by simp⟩
    · exact wbefore_P hm hc
  | _ => exact h.elim

theorem wbefore_run {letter : Char → Bool} (y : Text) : ∀ {x : Text} {s : WSt}, WBefore x s → '@' ∉ y →
    WBefore (x ++ y) (y.foldl (wordCharNext letter) s) := by
  induction y with
  | nil =>
    intro x s h _
    simpa using h
  | cons c y ih =>
    intro x s h hy
    rw [List.mem_cons, not_or] at hy
    have := ih (wbefore_step (letter := letter) h (fun hc => hy.1 hc.symm)) hy.2
    simpa using this

/-- The delimiter after a text that does not hide it. -/
theorem wbefore_at {letter : Char → Bool} {a : Text} {s : WSt} (h : WBefore a s) (h1 : NotCommented a) : wordCharNext letter s '@' = .a := by
  unfold wordCharNext
  rw [kindOf_at]
  cases s with
  | p | h | s1 | s2 => rfl
  | cm =>
    obtain ⟨u, m, w, hm, hw, he⟩ := h
    exact absurd he (h1 u m w hm hw)
  | _ => exact h.elim

/-- The meaning of the states in a name. -/
def WName (u : Text) : WSt → Prop
  | .a | .m1 | .m2 | .u1 | .u2 => u = []
  | .ne => u = c!"e"
  | .nel => u = c!"el"
  | .nels => u = c!"els"
  | .nen => u = c!"en"
  | .nf => u = c!"f"
  | .nfo => u = c!"fo"
  | .nfor => u = c!"for"
  | .nm => True
  | _ => c!"else" <+: u ∨ c!"end" <+: u

theorem wname_keyword {u : Text} {c : Char} (h : c!"else" <+: u ∨ c!"end" <+: u) : c!"else" <+: u ++ [c] ∨ c!"end" <+: u ++ [c] :=
  h.imp (fun h => h.trans (List.prefix_append u [c])) (fun h => h.trans (List.prefix_append u [c]))

theorem wname_any {u : Text} (h : c!"else" <+: u ∨ c!"end" <+: u) {s : WSt} (hs : s = .k ∨ s = .ki ∨ s = .kif ∨ s = .w) : WName u s := by
  rcases hs with rfl | rfl | rfl | rfl <;> exact h

theorem word_nextN {k : Kind} (hk : k.inName = true) : wordN k = .nm ∧ wordW k = .w := by
  cases k <;> first | exact ⟨rfl, rfl⟩ | cases hk

theorem wname_step {letter : Char → Bool} {u : Text} {s : WSt} {c : Char} (h : WName u s) (hs : s ∈ [WSt.a, .m1, .m2, .u1, .u2, .ne, .nel, .nels, .nen, .nf, .nfo, .nfor, .nm, .k, .ki, .kif, .w])
    (hk : (kindOf letter c).inName = true)
    (ha : u = [] → (kindOf letter c).isLetter = true) : WName (u ++ [c]) (wordCharNext letter s c) ∧
      wordCharNext letter s c ∈ [WSt.a, .m1, .m2, .u1, .u2, .ne, .nel, .nels, .nen, .nf, .nfo, .nfor, .nm, .k, .ki, .kif, .w] := by
  have hm := kind_meaning letter c
  unfold wordCharNext
  generalize kindOf letter c = k at hm hk ha
  have hn : WName (u ++ [c]) (wordN k) ∧ wordN k ∈ [WSt.a, .m1, .m2, .u1, .u2, .ne, .nel, .nels, .nen, .nf, .nfo, .nfor, .nm, .k, .ki, .kif, .w] := by
    rw [(word_nextN hk).1]
    exact ⟨trivial, by decide⟩
  have hw : (c!"else" <+: u ∨ c!"end" <+: u) →
      WName (u ++ [c]) (wordW k) ∧ wordW k ∈ [WSt.a, .m1, .m2, .u1, .u2, .ne, .nel, .nels, .nen, .nf, .nfo, .nfor, .nm, .k, .ki, .kif, .w] := by
    intro h
    rw [(word_nextN hk).2]
    exact ⟨wname_any (wname_keyword h) (by simp), by decide⟩
  cases s with
  | a | m1 | m2 | u1 | u2 =>
    have ha := ha h
    rw [show u = [] from h]
    cases k <;> first | (cases ha; done) | exact ⟨trivial, by decide⟩ | (subst hm; exact ⟨rfl, by decide⟩)
  | ne =>
    subst h
    simp only [wordNext]
    split
    · subst hm
      exact ⟨rfl, by decide⟩
    · subst hm
      exact ⟨rfl, by decide⟩
    · exact hn
  | nel =>
    subst h
    simp only [wordNext]
    split
    · subst hm
      exact ⟨rfl, by decide⟩
    · exact hn
  | nels =>
    subst h
    simp only [wordNext]
    split
    · subst hm
      exact ⟨.inl ⟨[], rfl⟩, by decide⟩
    · exact hn
  | nen =>
    subst h
    simp only [wordNext]
    split
    · subst hm
      exact ⟨.inr ⟨[], rfl⟩, by decide⟩
    · exact hn
  | nf =>
    subst h
    simp only [wordNext]
    split
    · subst hm
      exact ⟨rfl, by decide⟩
    · exact hn
  | nfo =>
    subst h
    simp only [wordNext]
    split
    · subst hm
      exact ⟨rfl, by decide⟩
    · exact hn
  | nfor =>
    cases k <;> first | (cases hk; done) | exact ⟨trivial, by decide⟩
  | nm => exact hn
  | k =>
    simp only [wordNext]
    split
    · exact ⟨wname_any (wname_keyword h) (by simp), by decide⟩
    · cases hk
    · exact hw h
  | ki =>
    simp only [wordNext]
    split
    · exact ⟨wname_any (wname_keyword h) (by simp), by decide⟩
    · exact hw h
  | kif =>
    simp only [wordNext]
    split
    · cases hk
    · cases hk
    · exact hw h
  | w => exact hw h
  | _ => exact absurd hs (by decide)

theorem wname_run {letter : Char → Bool} (hl : PlainLetters letter) (y : Text) : ∀ {u : Text} {s : WSt}, WName u s →
    s ∈ [WSt.a, .m1, .m2, .u1, .u2, .ne, .nel, .nels, .nen, .nf, .nfo, .nfor, .nm, .k, .ki, .kif, .w] →
    (∀ c ∈ y, varChar letter c = true) → (u = [] → ∃ c t, y = c :: t ∧ letter c = true) →
    WName (u ++ y) (y.foldl (wordCharNext letter) s) ∧
      y.foldl (wordCharNext letter) s ∈ [WSt.a, .m1, .m2, .u1, .u2, .ne, .nel, .nels, .nen, .nf, .nfo, .nfor, .nm, .k, .ki, .kif, .w] := by
  induction y with
  | nil =>
    intro u s h hs _ _
    exact ⟨by simpa using h, hs⟩
  | cons c y ih =>
    intro u s h hs hy ha
    have h1 := wname_step (letter := letter) (c := c) h hs (varChar_kind hl (hy c (List.mem_cons_self ..))) (by
      intro hu
      obtain ⟨c', t, he, hc'⟩ := ha hu
      cases he
      exact itemMay_sound hl (i := .letter) hc')
    have := ih h1.1 h1.2 (fun d hd => hy d (List.mem_cons_of_mem _ hd)) (by simp)
    simpa using this

/-- The states after a name. -/
def wafterName : WSt → Bool
  | .ne | .nel | .nels | .nen | .nf | .nfo | .nm | .d => true
  | _ => false

/-- The states after the signs. -/
theorem wsign_state (letter : Char → Bool) {r : Text × Text × Text} (h : r ∈ reduceSigns) :
    r.1.foldl (wordCharNext letter) .a ∈ [WSt.a, .m1, .m2, .u1, .u2] ∧ ('_' ∉ r.1 → ∀ t,
      ('$' :: t).foldl (wordCharNext letter) (r.1.foldl (wordCharNext letter) .a) = t.foldl (wordCharNext letter) .d) := by
  simp only [reduceSigns, List.mem_cons, List.not_mem_nil, or_false] at h
  rcases h with rfl | rfl | rfl | rfl | rfl
  · exact ⟨List.mem_of_elem_eq_true rfl, fun _ _ => rfl⟩
  · exact ⟨List.mem_of_elem_eq_true rfl, fun _ _ => rfl⟩
  · exact ⟨List.mem_of_elem_eq_true rfl, fun _ _ => rfl⟩
  · exact ⟨List.mem_of_elem_eq_true rfl, fun h => absurd (by decide) h⟩
  · exact ⟨List.mem_of_elem_eq_true rfl, fun h => absurd (by decide) h⟩

theorem wlocal_run {letter : Char → Bool} (hl : PlainLetters letter) (y : Text) (hy : ∀ c ∈ y, varChar letter c = true ∨ c = '.') :
    y.foldl (wordCharNext letter) .d = .d := by
  induction y with
  | nil => rfl
  | cons c y ih =>
    have : wordCharNext letter .d c = .d := by
      unfold wordCharNext
      rcases hy c (List.mem_cons_self ..) with h | rfl
      · have := varChar_kind hl h
        generalize kindOf letter c = k at this
        cases k <;> first | rfl | cases this
      · rfl
    rw [List.foldl_cons, this]
    exact ih (fun d hd => hy d (List.mem_cons_of_mem _ hd))

theorem wname_end {letter : Char → Bool} (hl : PlainLetters letter) {name : Text} (h : VarName letter name) {s : WSt}
    (hs : s ∈ [WSt.a, .m1, .m2, .u1, .u2]) : wafterName (name.foldl (wordCharNext letter) s) = true := by
  have hm := wname_run hl name (u := []) (s := s)
    (by simp only [List.mem_cons, List.not_mem_nil, or_false] at hs; rcases hs with rfl | rfl | rfl | rfl | rfl <;> rfl) (by revert s; decide) h.chars (fun _ => h.first)
  rw [List.nil_append] at hm
  obtain ⟨hm, hs⟩ := hm
  generalize name.foldl (wordCharNext letter) s = s at hm hs
  cases s with
  | a | m1 | m2 | u1 | u2 =>
    obtain ⟨c, t, he, _⟩ := h.first
    rw [show name = [] from hm] at he
    cases he
  | nfor => exact absurd hm h.notFor
  | ne | nel | nels | nen | nf | nfo | nm => rfl
  | k | ki | kif | w =>
    rcases hm with hm | hm
    · exact absurd hm h.notElse
    · exact absurd hm h.notEnd
  | _ => exact absurd hs (by decide)

theorem wprinted_end {letter : Char → Bool} (hl : PlainLetters letter) {v code : Text} (h : Printed letter v code) :
    wafterName (v.foldl (wordCharNext letter) .a) = true := by
  cases h with
  | global r name hr hn =>
    rw [List.foldl_append]
    exact wname_end hl hn (wsign_state letter hr).1
  | «local» r name hr hu hn =>
    obtain ⟨t, rfl, ht⟩ := hn
    rw [List.foldl_append, (wsign_state letter hr).2 hu, wlocal_run hl t ht]
    rfl

theorem wafterName_next {s : WSt} (h : wafterName s = true) {k : Kind} (hk : k.inName = false) (hd : k ≠ .dot) : wordNext s k = wordNext .nm k := by
  cases s <;> first | (cases h; done) | (cases k <;> first | (cases hk; done) | rfl | exact absurd rfl hd)

/-- The meaning of the states after a name, in the text `b`. -/
def WAfterName (v : Text) : WSt → Prop
  | .nm => v = []
  | .b => ∀ c ∈ v, isBlank c = true
  | s => WBefore v s

theorem wafterName_of {v : Text} {s : WSt} (h : WBefore v s) : WAfterName v s := by
  cases s <;> first | exact h | exact h.elim

theorem wafterName_step {letter : Char → Bool} (hl : PlainLetters letter) {b v : Text} (he : Ends letter b) {s : WSt} {c : Char} (h : WAfterName v s)
    (hv : v ++ [c] <+: b) (hc : c ≠ '@') : WAfterName (v ++ [c]) (wordCharNext letter s c) := by
  have hbefore := wbefore_step (letter := letter) (x := v) (s := s) (c := c)
  have hm := kind_meaning letter c
  have hvar := kind_varChar hl (c := c)
  obtain ⟨rest, hrest⟩ := hv
  unfold wordCharNext at hbefore ⊢
  generalize kindOf letter c = k at hm hvar hbefore
  cases s with
  | nm =>
    subst h
    have hnext := he.next c (by rw [← hrest]; rfl)
    have hp := wbefore_P (x := []) hm hc
    cases k <;> simp only [wordNext, wordN] <;> first
      | exact absurd hm hc
      | (have := hvar rfl; rw [hnext.1] at this; cases this; done)
      | (rw [show c = _ from hm] at hnext; exact absurd hnext.2 (by decide))
      | exact forall_snoc (by simp) hm
      | exact wafterName_of hp
  | b =>
    simp only [wordNext]
    split
    · exact forall_snoc h hm
    · refine (he.noCall v rest h ?_).elim
      rw [← hrest, show c = '(' from hm]
      simp
    · exact wafterName_of (wbefore_P hm hc)
  | p => exact wafterName_of (hbefore h hc)
  | h => exact wafterName_of (hbefore h hc)
  | s1 => exact wafterName_of (hbefore h hc)
  | s2 => exact wafterName_of (hbefore h hc)
  | cm => exact wafterName_of (hbefore h hc)
  | _ => exact h.elim

theorem wafterName_run {letter : Char → Bool} (hl : PlainLetters letter) {b : Text} (he : Ends letter b) (y : Text) : ∀ {v : Text} {s : WSt},
    WAfterName v s → v ++ y <+: b → '@' ∉ y → WAfterName (v ++ y) (y.foldl (wordCharNext letter) s) := by
  induction y with
  | nil =>
    intro v s h _ _
    simpa using h
  | cons c y ih =>
    intro v s h hv hy
    rw [List.mem_cons, not_or] at hy
    have hv' : v ++ [c] ++ y <+: b := by simpa using hv
    have h1 := wafterName_step hl he h ((List.prefix_append _ y).trans hv') (fun hc => hy.1 hc.symm)
    have := ih h1 hv' hy.2
    simpa using this

theorem wafterName_text {letter : Char → Bool} (hl : PlainLetters letter) {b : Text} (he : Ends letter b) {y : Text} (hy : y <+: b) (hat : '@' ∉ y)
    (hne : y ≠ []) {s : WSt} (hs : wafterName s = true) : WAfterName y (y.foldl (wordCharNext letter) s) := by
  cases y with
  | nil => exact absurd rfl hne
  | cons c y =>
    have hnm : wordCharNext letter s c = wordCharNext letter .nm c := by
      unfold wordCharNext
      obtain ⟨rest, hrest⟩ := hy
      have := he.next c (by rw [← hrest]; rfl)
      refine wafterName_next hs ?_ ?_
      · rw [Bool.eq_false_iff]
        intro hk
        rw [kind_varChar hl hk] at this
        cases this.1
      · intro hk
        have hm := kind_meaning letter c
        rw [hk] at hm
        rw [show c = '.' from hm] at this
        exact this.2 (by decide)
    rw [List.foldl_cons, hnm, ← List.foldl_cons]
    exact wafterName_run hl he (c :: y) (v := []) (s := .nm) rfl hy hat

theorem wafterName_at {letter : Char → Bool} {v : Text} {s : WSt} (h : WAfterName v s) (hne : v ≠ []) (hn : NotCommented v) :
    wordCharNext letter s '@' = .a := by
  cases s with
  | nm => exact absurd h hne
  | b => rfl
  | p => exact wbefore_at (a := v) h hn
  | h => exact wbefore_at (a := v) h hn
  | s1 => exact wbefore_at (a := v) h hn
  | s2 => exact wbefore_at (a := v) h hn
  | cm => exact wbefore_at (a := v) h hn
  | _ => exact h.elim

/-! ## After a keyword -/

/-- The meaning of the states after a keyword, in the text `b`. -/
def WAfterWord (letter : Char → Bool) (b v : Text) : WSt → Prop
  | .k => v = [] ∧ NotIf b
  | .ki => v = c!"i" ∧ NotIf b
  | .kif => v = c!"if" ∧ NotIf b
  | .kb => (∀ c ∈ v, isBlank c = true) ∧ NotIf b
  | .kbi => (∃ w, (∀ c ∈ w, isBlank c = true) ∧ v = w ++ c!"i") ∧ NotIf b
  | .kbif => (∃ w u, (∀ c ∈ w, isBlank c = true) ∧ (∀ c ∈ u, isBlank c = true) ∧ v = w ++ (c!"if" ++ u)) ∧ NotIf b
  | .w => ∀ c ∈ v, hostChar letter c = true
  | .wd => ∃ f, (∀ c ∈ f, hostChar letter c = true) ∧ v = f ++ c!"."
  | s => WBefore v s

theorem wafterWord_of {letter : Char → Bool} {b v : Text} {s : WSt} (h : WBefore v s) : WAfterWord letter b v s := by
  cases s <;> first | exact h | exact h.elim

theorem host_kind {letter : Char → Bool} (hl : PlainLetters letter) {c : Char} (h : (kindOf letter c).inName = true ∨ kindOf letter c = .minus) :
    hostChar letter c = true := by
  unfold hostChar
  rcases h with h | h
  · rw [kind_varChar hl h]
    rfl
  · have := kind_meaning letter c
    rw [h] at this
    rw [show c = '-' from this]
    simp

theorem wafterWord_step {letter : Char → Bool} (hl : PlainLetters letter) {b v : Text} (he : NotHost letter b) {s : WSt} {c : Char}
    (h : WAfterWord letter b v s) (hv : v ++ [c] <+: b) (hc : c ≠ '@') : WAfterWord letter b (v ++ [c]) (wordCharNext letter s c) := by
  have hbefore := wbefore_step (letter := letter) (x := v) (s := s) (c := c)
  have hm := kind_meaning letter c
  have hhost := host_kind hl (c := c)
  obtain ⟨rest, hrest⟩ := hv
  unfold wordCharNext at hbefore ⊢
  generalize kindOf letter c = k at hm hhost hbefore
  have hi : hostChar letter 'i' = true := by
    have := hl.1 'i' (by decide)
    simp [hostChar, varChar, this]
  have hf : hostChar letter 'f' = true := by
    have := hl.1 'f' (by decide)
    simp [hostChar, varChar, this]
  have inWord : (∀ c ∈ v, hostChar letter c = true) → WAfterWord letter b (v ++ [c]) (wordW k) := by
    intro h
    have hp := wbefore_P (x := v) hm hc
    cases k <;> simp only [wordW] <;> first
      | exact absurd hm hc
      | exact forall_snoc h (hhost (.inl rfl))
      | exact forall_snoc h (hhost (.inr rfl))
      | exact ⟨v, h, by rw [show c = '.' from hm]⟩
      | exact wafterWord_of hp
  cases s with
  | k =>
    obtain ⟨rfl, hn⟩ := h
    simp only [wordNext]
    split
    · exact ⟨by rw [show c = 'i' from hm]; rfl, hn⟩
    · exact ⟨forall_snoc (by simp) hm, hn⟩
    · exact inWord (by simp)
  | ki =>
    obtain ⟨rfl, hn⟩ := h
    simp only [wordNext]
    split
    · exact ⟨by rw [show c = 'f' from hm]; rfl, hn⟩
    · exact inWord (by simp [hi])
  | kif =>
    obtain ⟨rfl, hn⟩ := h
    simp only [wordNext]
    split
    · exact ⟨⟨[], [c], by simp, fun d hd => by rw [List.mem_singleton.mp hd]; exact hm, rfl⟩, hn⟩
    · refine (hn [] [] rest (by simp) (by simp) ?_).elim
      rw [← hrest, show c = '(' from hm]
      simp
    · exact inWord (by simp [hi, hf])
  | kb =>
    obtain ⟨h, hn⟩ := h
    simp only [wordNext]
    split
    · exact ⟨forall_snoc h hm, hn⟩
    · exact ⟨⟨v, h, by rw [show c = 'i' from hm]⟩, hn⟩
    · exact wafterWord_of (wbefore_P hm hc)
  | kbi =>
    obtain ⟨⟨w, hw, rfl⟩, hn⟩ := h
    simp only [wordNext]
    split
    · exact ⟨⟨w, [], hw, by simp, by rw [show c = 'f' from hm]; simp⟩, hn⟩
    · exact wafterWord_of (wbefore_P hm hc)
  | kbif =>
    obtain ⟨⟨w, u, hw, hu, rfl⟩, hn⟩ := h
    simp only [wordNext]
    split
    · exact ⟨⟨w, u ++ [c], hw, forall_snoc hu hm, by simp⟩, hn⟩
    · refine (hn w u rest hw hu ?_).elim
      rw [← hrest, show c = '(' from hm]
      simp
    · exact wafterWord_of (wbefore_P hm hc)
  | w => exact inWord h
  | wd =>
    obtain ⟨f, hf, rfl⟩ := h
    have hbad : hostChar letter c = true → False := by
      intro hh
      refine he f c rest hf hh ?_
      rw [← hrest]
      simp
    have hp := wbefore_P (x := f ++ c!".") hm hc
    simp only [wordNext]
    split <;> first
      | exact (hbad (hhost (.inl rfl))).elim
      | exact (hbad (hhost (.inr rfl))).elim
      | exact wafterWord_of hp
  | p => exact wafterWord_of (hbefore h hc)
  | h => exact wafterWord_of (hbefore h hc)
  | s1 => exact wafterWord_of (hbefore h hc)
  | s2 => exact wafterWord_of (hbefore h hc)
  | cm => exact wafterWord_of (hbefore h hc)
  | _ => exact h.elim

theorem wafterWord_run {letter : Char → Bool} (hl : PlainLetters letter) {b : Text} (he : NotHost letter b) (y : Text) : ∀ {v : Text} {s : WSt},
    WAfterWord letter b v s → v ++ y <+: b → '@' ∉ y → WAfterWord letter b (v ++ y) (y.foldl (wordCharNext letter) s) := by
  induction y with
  | nil =>
    intro v s h _ _
    simpa using h
  | cons c y ih =>
    intro v s h hv hy
    rw [List.mem_cons, not_or] at hy
    have hv' : v ++ [c] ++ y <+: b := by simpa using hv
    have h1 := wafterWord_step hl he h ((List.prefix_append _ y).trans hv') (fun hc => hy.1 hc.symm)
    have := ih h1 hv' hy.2
    simpa using this

theorem wafterWord_at {letter : Char → Bool} {b v : Text} {s : WSt} (h : WAfterWord letter b v s) (hn : NotCommented v) :
    wordCharNext letter s '@' = .a := by
  cases s with
  | k | ki | kif | kb | kbi | kbif | w | wd => rfl
  | p => exact wbefore_at (a := v) h hn
  | h => exact wbefore_at (a := v) h hn
  | s1 => exact wbefore_at (a := v) h hn
  | s2 => exact wbefore_at (a := v) h hn
  | cm => exact wbefore_at (a := v) h hn
  | _ => exact h.elim

theorem wafterWord_bad {letter : Char → Bool} {b v : Text} : ¬ WAfterWord letter b v .bad := id

/-! ## Texts -/

/-- A text with variables, `else` and `end`, as the automaton reads it. -/
inductive WSource (letter : Char → Bool) : Text → Prop
  | plain {a : Text} : '@' ∉ a → WSource letter a
  | var {a v code rest : Text} : '@' ∉ a → NotCommented a → Printed letter v code → Ends letter rest → rest.head? ≠ some '@' → WSource letter rest →
      WSource letter (a ++ '@' :: (v ++ rest))
  | els {a rest : Text} {r : Text × Text × Text} : '@' ∉ a → NotCommented a → r ∈ reduceSigns → NotHost letter rest → NotIf rest → WSource letter rest →
      WSource letter (a ++ '@' :: (r.1 ++ (c!"else" ++ rest)))
  | fin {a rest : Text} {r : Text × Text × Text} : '@' ∉ a → NotCommented a → r ∈ reduceSigns → NotHost letter rest → WSource letter rest →
      WSource letter (a ++ '@' :: (r.1 ++ (c!"end" ++ rest)))

theorem sign_else (letter : Char → Bool) {r : Text × Text × Text} (h : r ∈ reduceSigns) (rest : Text) :
    (r.1 ++ (c!"else" ++ rest)).foldl (wordCharNext letter) .a = rest.foldl (wordCharNext letter) .k := by
  simp only [reduceSigns, List.mem_cons, List.not_mem_nil, or_false] at h
  rcases h with rfl | rfl | rfl | rfl | rfl <;> rfl

theorem sign_end (letter : Char → Bool) {r : Text × Text × Text} (h : r ∈ reduceSigns) (rest : Text) :
    (r.1 ++ (c!"end" ++ rest)).foldl (wordCharNext letter) .a = rest.foldl (wordCharNext letter) .w := by
  simp only [reduceSigns, List.mem_cons, List.not_mem_nil, or_false] at h
  rcases h with rfl | rfl | rfl | rfl | rfl <;> rfl

/-- What is read from the state `s` before a delimiter leads to the state `a`. -/
theorem wsource_run {letter : Char → Bool} (hl : PlainLetters letter) {t : Text} (h : WSource letter t) :
    t.foldl (wordCharNext letter) .p ≠ .bad ∧
    (∀ s, wafterName s = true → Ends letter t → t.head? ≠ some '@' → t.foldl (wordCharNext letter) s ≠ .bad) ∧
    (NotHost letter t → NotIf t → t.foldl (wordCharNext letter) .k ≠ .bad) ∧ (NotHost letter t → t.foldl (wordCharNext letter) .w ≠ .bad) := by
  have gen : ∀ {a x : Text}, '@' ∉ a → NotCommented a → x.foldl (wordCharNext letter) .a ≠ .bad →
      (a ++ '@' :: x).foldl (wordCharNext letter) .p ≠ .bad ∧
      (∀ s, wafterName s = true → Ends letter (a ++ '@' :: x) → (a ++ '@' :: x).head? ≠ some '@' → (a ++ '@' :: x).foldl (wordCharNext letter) s ≠ .bad) ∧
      (NotHost letter (a ++ '@' :: x) → NotIf (a ++ '@' :: x) → (a ++ '@' :: x).foldl (wordCharNext letter) .k ≠ .bad) ∧
      (NotHost letter (a ++ '@' :: x) → (a ++ '@' :: x).foldl (wordCharNext letter) .w ≠ .bad) := by
    intro a x ha hc hx
    refine ⟨?_, ?_, ?_, ?_⟩
    · have := wbefore_run (letter := letter) a (x := []) (s := .p) trivial ha
      rw [List.foldl_append, List.foldl_cons, wbefore_at this hc]
      exact hx
    · intro s hs he hh
      have hne : a ≠ [] := by
        rintro rfl
        exact hh rfl
      have := wafterName_text hl he (List.prefix_append a _) ha hne hs
      rw [List.foldl_append, List.foldl_cons, wafterName_at this hne hc]
      exact hx
    · intro hh hi
      have := wafterWord_run hl hh a (v := []) (s := .k) ⟨rfl, hi⟩ (List.prefix_append a _) ha
      rw [List.foldl_append, List.foldl_cons, wafterWord_at this hc]
      exact hx
    · intro hh
      have := wafterWord_run hl hh a (v := []) (s := .w) (by simp [WAfterWord]) (List.prefix_append a _) ha
      rw [List.foldl_append, List.foldl_cons, wafterWord_at this hc]
      exact hx
  induction h with
  | @plain a ha =>
    refine ⟨?_, ?_, ?_, ?_⟩
    · intro h
      have := wbefore_run (letter := letter) a (x := []) (s := .p) trivial ha
      rw [h] at this
      exact this
    · intro s hs he _
      cases a with
      | nil =>
        intro h
        rw [show s = .bad from h] at hs
        cases hs
      | cons c a =>
        have := wafterName_text hl he (List.prefix_refl _) ha (by simp) hs
        intro h
        rw [h] at this
        exact this
    · intro hh hi h
      have := wafterWord_run hl hh a (v := []) (s := .k) ⟨rfl, hi⟩ (List.prefix_refl _) ha
      rw [h] at this
      exact this
    · intro hh h
      have := wafterWord_run hl hh a (v := []) (s := .w) (by simp [WAfterWord]) (List.prefix_refl _) ha
      rw [h] at this
      exact this
  | @var a v code rest ha hc hn he hh hsrc ih =>
    refine gen ha hc ?_
    rw [List.foldl_append]
    exact ih.2.1 _ (wprinted_end hl hn) he hh
  | @els a rest r ha hc hr hh hi hsrc ih =>
    refine gen ha hc ?_
    rw [sign_else letter hr]
    exact ih.2.2.1 hh hi
  | @fin a rest r ha hc hr hh hsrc ih =>
    refine gen ha hc ?_
    rw [sign_end letter hr]
    exact ih.2.2.2 hh

theorem word_in_p {letter : Char → Bool} (y : Text) (hy : ∀ c ∈ y, (kindOf letter c).inToken = true) :
    y.foldl (wordCharNext letter) .p = .p := by
  induction y with
  | nil => rfl
  | cons c y ih =>
    have : wordCharNext letter .p c = .p := by
      have := hy c (List.mem_cons_self ..)
      unfold wordCharNext
      generalize kindOf letter c = k at this
      cases k <;> first | rfl | cases this
    rw [List.foldl_cons, this]
    exact ih (fun d hd => hy d (List.mem_cons_of_mem _ hd))

/-- The characters of a keyword and its signs. -/
theorem wsign_kinds (letter : Char → Bool) {r : Text × Text × Text} (h : r ∈ reduceSigns) {word : Text} (hw : word = c!"else" ∨ word = c!"end") :
    ∀ c ∈ r.1 ++ word, (kindOf letter c).inToken = true := by
  have key : ∀ c ∈ c!"elsnd", (kindOf letter c).inToken = true := by
    intro c hc
    simp only [List.mem_cons, List.not_mem_nil, or_false] at hc
    rcases hc with rfl | rfl | rfl | rfl | rfl <;> rfl
  have inWord : ∀ word ∈ [c!"else", c!"end"], ∀ c ∈ word, c ∈ c!"elsnd" := by decide
  intro c hc
  rcases List.mem_append.mp hc with hc | hc
  · exact sign_kinds letter h c hc
  · exact key c (inWord word (by simpa using hw) c hc)

/-- From any place of the text, the automaton does not go wrong. -/
theorem wsource_suffix {letter : Char → Bool} (hl : PlainLetters letter) {t : Text} (h : WSource letter t) :
    ∀ u x, t = u ++ x → x.foldl (wordCharNext letter) .p ≠ .bad := by
  -- the delimiter is in what is read, or it is before it
  have cut : ∀ {a y rest u x : Text}, (∀ c ∈ y, (kindOf letter c).inToken = true) → WSource letter rest →
      (∀ u x, rest = u ++ x → x.foldl (wordCharNext letter) .p ≠ .bad) →
      (∀ a' a'', a = a' ++ a'' → (a'' ++ '@' :: (y ++ rest)).foldl (wordCharNext letter) .p ≠ .bad) → a ++ '@' :: (y ++ rest) = u ++ x →
      x.foldl (wordCharNext letter) .p ≠ .bad := by
    intro a y rest u x hy hsrc ih ha hux
    rcases List.append_eq_append_iff.mp hux with ⟨u', h1, h2⟩ | ⟨a', h1, h2⟩
    · cases u' with
      | nil =>
        rw [List.nil_append] at h2
        rw [← h2]
        exact ha a [] (by simp)
      | cons d u' =>
        simp only [List.cons_append, List.cons.injEq] at h2
        rcases List.append_eq_append_iff.mp h2.2 with ⟨v, h3, h4⟩ | ⟨v, h3, h4⟩
        · exact ih v x h4
        · rw [h4, List.foldl_append, word_in_p v (fun c hm => hy c (by rw [h3]; exact List.mem_append_right _ hm))]
          exact (wsource_run hl hsrc).1
    · rw [h2]
      exact ha u a' h1
  induction h with
  | @plain a ha =>
    rintro u x rfl
    exact (wsource_run hl (.plain (fun h => ha (List.mem_append_right _ h)))).1
  | @var a v code rest ha hc hn he hh hsrc ih =>
    intro u x hux
    refine cut (printed_kinds hl hn) hsrc ih ?_ hux
    intro a' a'' haa
    rw [haa] at hc ha
    exact (wsource_run hl (.var (fun h => ha (List.mem_append_right _ h)) (notCommented_suffix hc) hn he hh hsrc)).1
  | @els a rest r ha hc hr hh hi hsrc ih =>
    intro u x hux
    rw [← List.append_assoc] at hux
    refine cut (wsign_kinds letter hr (.inl rfl)) hsrc ih ?_ hux
    intro a' a'' haa
    rw [haa] at hc ha
    rw [List.append_assoc]
    exact (wsource_run hl (.els (fun h => ha (List.mem_append_right _ h)) (notCommented_suffix hc) hr hh hi hsrc)).1
  | @fin a rest r ha hc hr hh hsrc ih =>
    intro u x hux
    rw [← List.append_assoc] at hux
    refine cut (wsign_kinds letter hr (.inr rfl)) hsrc ih ?_ hux
    intro a' a'' haa
    rw [haa] at hc ha
    rw [List.append_assoc]
    exact (wsource_run hl (.fin (fun h => ha (List.mem_append_right _ h)) (notCommented_suffix hc) hr hh hsrc)).1

theorem word_bad_stays (letter : Char → Bool) (y : Text) : y.foldl (wordCharNext letter) .bad = .bad := by
  induction y with
  | nil => rfl
  | cons c y ih => exact ih

/-- No part of the text leads to `bad`. -/
theorem not_word_bad {letter : Char → Bool} (hl : PlainLetters letter) {t : Text} (h : WSource letter t) {x : Text} (hx : x <:+: t) :
    x.foldl (wordCharNext letter) .p ≠ .bad := by
  obtain ⟨u, v, huv⟩ := hx
  have := wsource_suffix hl h u (x ++ v) (by rw [← huv, List.append_assoc])
  rw [List.foldl_append] at this
  intro hb
  rw [hb, word_bad_stays] at this
  exact this rfl

end Verif.Lemmas
