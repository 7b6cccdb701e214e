import Verif.Lemmas.RazorNameRun
import Verif.Lemmas.RazorLoop
import Verif.Lemmas.RazorParts
import Verif.Lemmas.RazorAssignRule
import Verif.Spec.RazorCallSpec
/-!
# An automaton for the calls of functions in razor

It reads a text with one `@name(…)`, with the kinds and the states of the automaton of variables; the state `w` is between the parentheses and after them.
-/

namespace Verif.Lemmas
open Verif Regex Spec Engine Razor Table

def callNext (sp : Bool) (s : St) (k : Kind) : St :=
  match s with
  | .w => if k = .at then .bad else .w
  | .p | .h | .s1 | .s2 | .cm | .u1 | .u2 | .bad => next s k
  | .a | .m1 | .m2 => if k = .dollar then .bad else next s k
  | s => if k = .lpar ∨ (k = .blank ∧ sp = true) then .w else if k.inName then next s k else .bad

def charCall (sp : Bool) (letter : Char → Bool) (s : St) (c : Char) : St := callNext sp s (kindOf letter c)

/-- The states after a character of a class. -/
def callStep (sp : Bool) (k : Cls) (S : List St) : List St :=
  (allKinds.filter (clsMay k)).foldl (fun R kd => union R (S.foldl (fun R s => union R [callNext sp s kd]) [])) []

/-- The matches of the expression all lead to the state `bad`. -/
def callBad (sp : Bool) (r : Re) : Bool := (post allSt (callStep sp) r [.p]).all (fun s => s == .bad)

theorem callStep_sound {sp : Bool} {letter : Char → Bool} (hl : PlainLetters letter) (k : Cls) (c : Char) (s : St) (S : List St)
    (hk : k.has letter c = true) (hs : s ∈ S) : charCall sp letter s c ∈ callStep sp k S := by
  unfold callStep
  refine mem_foldl_union _ _ _ _ (.inr ⟨kindOf letter c, List.mem_filter.mpr ⟨?_, clsMay_sound hl hk⟩, ?_⟩)
  · cases kindOf letter c <;> decide
  · exact mem_foldl_union _ _ _ _ (.inr ⟨s, hs, List.mem_singleton.mpr rfl⟩)

theorem callBad_sound {sp : Bool} {letter : Char → Bool} (hl : PlainLetters letter) {r : Re} {p : Option Char} {x q : Text} {c c' : Caps}
    (h : Fit letter r p x q c c') (hb : callBad sp r = true) : x.foldl (charCall sp letter) .p = .bad := by
  have h1 := post_sound (all := allSt) (fun s => by cases s <;> decide) (step := callStep sp) (δ := charCall sp letter) (callStep_sound (sp := sp) hl) h
    (List.mem_singleton.mpr rfl : St.p ∈ [St.p])
  exact eq_of_beq (List.all_eq_true.mp hb _ h1)

/-! ## The automaton on a text -/

theorem before_call {sp : Bool} {letter : Char → Bool} (y : Text) : ∀ {x : Text} {s : St}, BeforeMeaning x s → '@' ∉ y →
    y.foldl (charCall sp letter) s = y.foldl (charNext letter) s := by
  induction y with
  | nil => intros; rfl
  | cons c y ih =>
    intro x s h hy
    rw [List.mem_cons, not_or] at hy
    have e : charCall sp letter s c = charNext letter s c := by
      cases s <;> first | rfl | exact h.elim
    rw [List.foldl_cons, List.foldl_cons, e]
    exact ih (before_step (letter := letter) h (fun hc => hy.1 hc.symm)) hy.2

theorem name_call {sp : Bool} {letter : Char → Bool} (hl : PlainLetters letter) (y : Text) : ∀ {u : Text} {s : St}, NameMeaning u s →
    (∀ c ∈ y, varChar letter c = true) → (u = [] → ∃ c t, y = c :: t ∧ letter c = true) →
    y.foldl (charCall sp letter) s = y.foldl (charNext letter) s := by
  induction y with
  | nil => intros; rfl
  | cons c y ih =>
    intro u s h hy ha
    have hk := varChar_kind hl (hy c (List.mem_cons_self ..))
    have h1 := name_step (letter := letter) (c := c) h hk (by
      intro hu
      obtain ⟨c', t, he, hc'⟩ := ha hu
      cases he
      exact itemMay_sound hl (i := .letter) hc')
    have e : charCall sp letter s c = charNext letter s c := by
      unfold charCall charNext
      generalize kindOf letter c = k at hk
      cases s <;> first | exact h.elim | (cases k <;> first | rfl | cases hk)
    rw [List.foldl_cons, List.foldl_cons, e]
    exact ih h1 (fun d hd => hy d (List.mem_cons_of_mem _ hd)) (by simp)

theorem call_stays {sp : Bool} {letter : Char → Bool} (z : Text) (h : '@' ∉ z) : z.foldl (charCall sp letter) .w = .w := by
  induction z with
  | nil => rfl
  | cons c z ih =>
    rw [List.mem_cons, not_or] at h
    have : charCall sp letter .w c = .w := by
      unfold charCall callNext
      simp only
      rw [if_neg]
      intro hk
      have := kind_meaning letter c
      rw [hk] at this
      exact h.1 this.symm
    rw [List.foldl_cons, this]
    exact ih h.2

theorem call_bad_stays (sp : Bool) (letter : Char → Bool) (y : Text) : y.foldl (charCall sp letter) .bad = .bad := by
  induction y with
  | nil => rfl
  | cons c y ih => exact ih

/-- A text with a call, read from the beginning. -/
theorem call_read {sp : Bool} {letter : Char → Bool} (hl : PlainLetters letter) {a name z : Text} {o : Char} (ho : o = '(' ∨ (isBlank o = true ∧ sp = true)) {r : Text × Text × Text} (hc : NotCommented a) (ha : '@' ∉ a) (hr : r ∈ reduceSigns)
    (hn : VarName letter name) (hz : '@' ∉ z) : (a ++ '@' :: (r.1 ++ (name ++ o :: z))).foldl (charCall sp letter) .p = .w := by
  have h1 : charCall sp letter (a.foldl (charCall sp letter) .p) '@' = .a := by
    rw [before_call a (x := []) (s := .p) trivial ha, ← before_at (letter := letter) hc ha]
    have := before_run (letter := letter) a (x := []) (s := .p) trivial ha
    generalize a.foldl (charNext letter) .p = s at this
    cases s <;> first | rfl | exact this.elim
  have h2 : r.1.foldl (charCall sp letter) .a = r.1.foldl (charNext letter) .a := by
    simp only [reduceSigns, List.mem_cons, List.not_mem_nil, or_false] at hr
    rcases hr with rfl | rfl | rfl | rfl | rfl <;> rfl
  have h3 := (sign_state letter hr).1
  have h4 := name_end hl hn h3
  rw [List.foldl_append, List.foldl_cons, h1, List.foldl_append, h2, List.foldl_append, name_call hl name h3 hn.chars (fun _ => hn.first), List.foldl_cons]
  generalize name.foldl (charNext letter) (r.1.foldl (charNext letter) .a) = s at h4
  have h5 : charCall sp letter s o = .w := by
    have hk : kindOf letter o = .lpar ∨ (kindOf letter o = .blank ∧ sp = true) := by
      rcases ho with rfl | ⟨hb, hs⟩
      · exact .inl rfl
      · rcases blank_or hb with rfl | rfl <;> exact .inr ⟨rfl, hs⟩
    unfold charCall
    generalize kindOf letter o = k at hk
    cases s <;> first | exact if_pos hk | cases h4
  rw [h5]
  exact call_stays z hz

/-- No part of the text leads to `bad`. -/
theorem call_not_bad {sp : Bool} {letter : Char → Bool} (hl : PlainLetters letter) {a name z : Text} {o : Char} (ho : o = '(' ∨ (isBlank o = true ∧ sp = true)) {r : Text × Text × Text} (hc : NotCommented a) (ha : '@' ∉ a) (hr : r ∈ reduceSigns)
    (hn : VarName letter name) (hz : '@' ∉ z) {x : Text} (hx : x <:+: a ++ '@' :: (r.1 ++ (name ++ o :: z))) : x.foldl (charCall sp letter) .p ≠ .bad := by
  obtain ⟨u, v, huv⟩ := hx
  rw [List.append_assoc] at huv
  have key : (x ++ v).foldl (charCall sp letter) .p ≠ .bad := by
    have free : ∀ y : Text, '@' ∉ y → y.foldl (charCall sp letter) .p ≠ .bad := by
      intro y hy
      rw [before_call y (x := []) (s := .p) trivial hy]
      have := before_run (letter := letter) y (x := []) (s := .p) trivial hy
      generalize y.foldl (charNext letter) .p = s at this
      rintro rfl
      exact this
    rcases List.append_eq_append_iff.mp huv with ⟨y, h1, h2⟩ | ⟨y, h1, h2⟩
    · rw [h2, call_read hl ho (notCommented_suffix (a := u) (by rw [← h1]; exact hc)) (fun hm => ha (by rw [h1]; simp [hm])) hr hn hz]
      decide
    · cases y with
      | nil =>
        rw [List.nil_append] at h2
        have := call_read hl ho (a := []) (notCommented_suffix (a := a) (by simpa using hc)) (by simp) hr hn hz
        rw [List.nil_append, h2] at this
        rw [this]
        decide
      | cons d y =>
        simp only [List.cons_append, List.cons.injEq] at h2
        refine free _ (fun hm => ?_)
        have hm : '@' ∈ r.1 ++ (name ++ o :: z) := by
          rw [h2.2]
          exact List.mem_append_right _ hm
        simp only [List.mem_append, List.mem_cons] at hm
        rcases hm with hm | hm | hm | hm
        · exact absurd hm ((by decide : ∀ r ∈ reduceSigns, '@' ∉ r.1) r hr)
        · have := hn.chars _ hm
          unfold varChar at this
          rw [hl.1 _ (by decide)] at this
          exact absurd this (by decide)
        · rw [← hm] at ho
          exact absurd ho (by simp [isBlank])
        · exact hz hm
  rw [List.foldl_append] at key
  intro hb
  rw [hb, call_bad_stays] at key
  exact key rfl

/-! ## The rules of commands -/

/-- How an expression begins. -/
def startsWith (h : Re) : Re → Bool
  | .seq a b => (.seq a b == h) || startsWith h a
  | r => r == h

theorem starts_sound {letter : Char → Bool} {h : Re} : ∀ {r : Re} {p : Option Char} {x q : Text} {c c' : Caps}, startsWith h r = true → Fit letter r p x q c c' →
    ∃ x1 x2 q' c'', x = x1 ++ x2 ∧ Fit letter h p x1 q' c c'' := by
  intro r
  have same : ∀ {r : Re} {p : Option Char} {x q : Text} {c c' : Caps}, (r == h) = true → Fit letter r p x q c c' → ∃ x1 x2 q' c'', x = x1 ++ x2 ∧ Fit letter h p x1 q' c c'' := by
    intro r p x q c c' he hf
    have he := eq_of_beq he
    subst he
    exact ⟨x, [], q, c', by simp, hf⟩
  induction r with
  | seq a b iha _ =>
    intro p x q c c' hs hf
    simp only [startsWith, Bool.or_eq_true] at hs
    rcases hs with hs | hs
    · exact same hs hf
    · obtain ⟨x, x2, _, rfl, h1, _⟩ := fit_seq hf
      obtain ⟨y1, y2, q', c'', rfl, g⟩ := iha hs h1
      exact ⟨y1, y2 ++ x2, q', c'', by simp, g⟩
  | _ => exact fun hs hf => same hs hf

/-- The words of the commands on one line. -/
def lineWordRe : Re := .alt (litRe c!"if") (.alt (litRe c!"with") (litRe c!"range"))

def startRe (w : Re) : Re := .seq (.seq (.seq (.seq (lit '@') reduceRe) (.group c!"command" w)) blankRe) (lit '(')

theorem fit_start {letter : Char → Bool} {w : Re} (hw : ∀ {p : Option Char} {x q : Text} {c c' : Caps}, Fit letter w p x q c c' → WordLike x) {p : Option Char} {x q : Text}
    {c c' : Caps} (h : Fit letter (startRe w) p x q c c') : ∃ r ∈ reduceSigns, ∃ m g, x = '@' :: (r.1 ++ (m ++ (g ++ ['(']))) ∧ WordLike m ∧ ∀ d ∈ g, isBlank d = true := by
  obtain ⟨x, x1, _, rfl, h, h1⟩ := fit_seq h
  obtain ⟨x, g, _, rfl, h, hg⟩ := fit_seq h
  obtain ⟨x, m, _, rfl, h, hm⟩ := fit_seq h
  obtain ⟨r, hr, rfl⟩ := fit_signs h
  obtain ⟨_, _, hm⟩ := fit_group hm
  refine ⟨r, hr, m, g, ?_, hw hm, fit_blanks hg⟩
  rw [(fit_lit h1).1]
  simp

theorem fit_lineWord {letter : Char → Bool} {p : Option Char} {x q : Text} {c c' : Caps} (h : Fit letter lineWordRe p x q c c') : WordLike x := by
  cases h with
  | left h => exact .inl (by rw [fit_word h]; decide)
  | right h =>
    cases h with
    | left h => exact .inl (by rw [fit_word h]; decide)
    | right h => exact .inl (by rw [fit_word h]; decide)

/-- Each way of matching has the text. -/
def needsAll (f : Text) (r : Re) : Bool := (piecesAll r).all (hasFactor (f.map some))

theorem needsAll_sound {letter : Char → Bool} {r : Re} {p : Option Char} {x q : Text} {c c' : Caps} {f : Text} (h : Fit letter r p x q c c') (hn : needsAll f r = true) : f <:+: x := by
  obtain ⟨l, hl, hfol⟩ := piecesAll_sound h
  obtain ⟨a, b, hab⟩ := hasFactor_infix (List.all_eq_true.mp hn l hl)
  rw [← hab, List.append_assoc] at hfol
  obtain ⟨y, hy, hl'⟩ := follows_drop hfol
  exact (follows_prefix hl').isInfix.trans hy.isInfix

/-- The rules that find nothing in a text with a call. -/
def callIdle (r : Re) : Bool :=
  ([c!"${", c!"{{ /*", c!"*/ }}"] ++ noCallSigns).any (fun f => needsAll f r) || startsWith (startRe lineWordRe) r || startsWith (startRe commandRe) r || r == loopRe || callBad false r

theorem table_call : ∀ e ∈ (table.drop 2).take 78, callIdle e.2.2.2 = true := by
  decide +kernel

/-- The beginning of a name of a function. -/
theorem word_is {letter : Char → Bool} (hl : PlainLetters letter) {name m g y z : Text} (hn : VarName letter name) (hm : ∀ c ∈ m, c.isAlpha = true)
    (hg : ∀ d ∈ g, isBlank d = true) (h : name ++ '(' :: z = m ++ (g ++ y)) (hy : g = [] → y.head? = some '(') : name = m := by
  have hv : ∀ {c : Char}, c = '(' ∨ isBlank c = true → varChar letter c = false := by
    intro c hc
    have hc' : c ∈ c!"( \t" := by
      rcases hc with rfl | hc
      · decide
      · simp only [isBlank, Bool.or_eq_true, beq_iff_eq] at hc
        rcases hc with rfl | rfl <;> decide
    unfold varChar
    rw [hl.1 c ((by decide : ∀ c ∈ c!"( \t", c.toNat < 128) c hc')]
    exact (by decide : ∀ c ∈ c!"( \t", (c.isAlpha || c.isDigit || c == '_') = false) c hc'
  have hma : ∀ c ∈ m, varChar letter c = true := by
    intro c hc
    have h1 := hm c hc
    have h128 : c.toNat < 128 := by
      simp only [Char.isAlpha, Char.isUpper, Char.isLower, Bool.or_eq_true, Bool.and_eq_true, decide_eq_true_eq] at h1
      rcases h1 with ⟨_, h⟩ | ⟨_, h⟩
      · have := UInt32.le_iff_toNat_le.mp h
        simp at this
        omega
      · have := UInt32.le_iff_toNat_le.mp h
        simp at this
        omega
    unfold varChar
    rw [hl.1 c h128, h1]
    rfl
  have p1 : m <+: name := word_prefix (P := varChar letter) hma (fun c hc => by cases hc; exact hv (.inl rfl)) h
  have p2 : name <+: m := word_prefix (P := varChar letter) hn.chars (fun c hc => by
    cases g with
    | nil =>
      rw [List.nil_append, hy rfl] at hc
      cases hc
      exact hv (.inl rfl)
    | cons d g =>
      cases hc
      exact hv (.inr (hg _ (List.mem_cons_self ..)))) h.symm
  exact List.IsPrefix.eq_of_length_le p2 p1.length_le

theorem call_not_word {letter : Char → Bool} (hl : PlainLetters letter) {name m g z y : Text} {r r' : Text × Text × Text} (hr : r ∈ reduceSigns) (hr' : r' ∈ reduceSigns)
    (hn : VarName letter name) (hw : name ∉ callWords) (hg : ∀ d ∈ g, isBlank d = true) (hm : WordLike m ∨ LoopWord m)
    (h : r.1 ++ (name ++ '(' :: z) = r'.1 ++ (m ++ (g ++ '(' :: y))) : False := by
  have hsplit : name ++ '(' :: z = m ++ (g ++ '(' :: y) := by
    obtain ⟨c₀, t, rfl, hc⟩ := hn.first
    have hf := first_not_sign hl hc
    obtain ⟨d, m', rfl, h1, h2⟩ : ∃ d m', m = d :: m' ∧ d ≠ '-' ∧ d ≠ '_' := by
      rcases hm with (hm | ⟨w, _, rfl⟩) | hm
      · simp only [List.mem_cons, List.not_mem_nil, or_false] at hm
        rcases hm with rfl | rfl | rfl | rfl | rfl <;> exact ⟨_, _, rfl, by decide, by decide⟩
      · exact ⟨_, _, rfl, by decide, by decide⟩
      · cases hm <;> exact ⟨_, _, rfl, by decide, by decide⟩
    exact sign_split hr hr' ⟨hf.1, hf.2.1⟩ ⟨h1, h2⟩ h
  rcases hm with (hm | ⟨w, hw', rfl⟩) | hm
  · have := word_is hl hn ((by decide : ∀ m ∈ [c!"if", c!"with", c!"range", c!"block", c!"define"], ∀ c ∈ m, c.isAlpha = true) m hm) hg hsplit (fun _ => rfl)
    rw [this] at hw
    exact hw ((by decide : ∀ m ∈ [c!"if", c!"with", c!"range", c!"block", c!"define"], m ∈ callWords) m hm)
  · have e : name ++ '(' :: z = c!"else" ++ ((w ++ c!"if") ++ (g ++ '(' :: y)) := by rw [hsplit]; simp
    refine hn.notElse (word_prefix (P := varChar letter) ?_ ?_ e)
    · intro c hc
      have := (by decide : ∀ c ∈ c!"else", c.toNat < 128 ∧ c.isAlpha = true) c hc
      unfold varChar
      rw [hl.1 c this.1, this.2]
      rfl
    · intro c hc
      cases hc
      unfold varChar
      rw [hl.1 _ (by decide)]
      decide
  · cases hm with
    | short => exact hn.notFor (word_is hl hn (by decide) hg hsplit (fun _ => rfl))
    | each w hw' =>
      cases w with
      | nil =>
        have e := word_is hl hn (m := c!"foreach") (y := '(' :: y) (by decide) hg (by rw [hsplit]; simp) (fun _ => rfl)
        exact hw (by rw [e]; decide)
      | cons d w => exact hn.notFor (word_is hl hn (m := c!"for") (g := d :: w) (y := c!"each" ++ (g ++ '(' :: y)) (by decide) hw' (by rw [hsplit]; simp) (by simp))

theorem rules_before_call {letter : Char → Bool} (hl : PlainLetters letter) (parser : Replacement → Text → Text) {a name z : Text} {r : Text × Text × Text}
    (hc : NotCommented a) (ha : '@' ∉ a) (hr : r ∈ reduceSigns) (hn : VarName letter name) (hw : name ∉ callWords) (hz : '@' ∉ z)
    (hs : NoOtherSign (a ++ '@' :: (r.1 ++ (name ++ '(' :: z)))) (hno : ∀ f ∈ noCallSigns, ¬ f <:+: a ++ '@' :: (r.1 ++ (name ++ '(' :: z))) :
    (((generate defaultDelims).drop 2).take 78).foldl (applyRule letter parser) (a ++ '@' :: (r.1 ++ (name ++ '(' :: z))) = a ++ '@' :: (r.1 ++ (name ++ '(' :: z)) := by
  have hat : '@' ∉ r.1 ++ (name ++ '(' :: z) := by
    have h1 : '@' ∉ r.1 := (by decide : ∀ r ∈ reduceSigns, '@' ∉ r.1) r hr
    have h2 : '@' ∉ name := by
      intro hm
      have := hn.chars _ hm
      unfold varChar at this
      rw [hl.1 _ (by decide)] at this
      exact absurd this (by decide)
    simp [h1, h2, hz]
  have word : ∀ {x : Text} {r' : Text × Text × Text} {m g y : Text}, x <:+: a ++ '@' :: (r.1 ++ (name ++ '(' :: z)) → r' ∈ reduceSigns → (∀ d ∈ g, isBlank d = true) →
      (WordLike m ∨ LoopWord m) → x = '@' :: (r'.1 ++ (m ++ (g ++ '(' :: y))) → False := by
    rintro x r' m g y ⟨u, v, hx⟩ hr' hg hm rfl
    have e : a ++ '@' :: (r.1 ++ (name ++ '(' :: z)) = u ++ '@' :: (r'.1 ++ (m ++ (g ++ '(' :: (y ++ v)))) := by rw [← hx]; simp
    rcases first_at ha e with ⟨_, h⟩ | ⟨w, _, h⟩
    · exact call_not_word hl hr hr' hn hw hg hm h.symm
    · exact hat (by rw [h]; simp)
  refine foldl_idle parser _ (fun rule hrule => ?_)
  obtain ⟨e, hmem, hcomp⟩ := rules_compiled 2 78 rule hrule
  have := table_call e hmem
  simp only [callIdle, Bool.or_eq_true] at this
  rw [applyRule_compiled hcomp]
  refine replaceRe_none (fun p x q caps hfit _ hx => ?_)
  rcases this with (((h' | h') | h') | h') | h'
  · obtain ⟨f, hf, hfn⟩ := List.any_eq_true.mp h'
    have hi := (needsAll_sound hfit hfn).trans hx
    rcases List.mem_append.mp hf with hf | hf
    · exact hs f ((by decide : ∀ f ∈ [c!"${", c!"{{ /*", c!"*/ }}"], f ∈ otherSigns) f hf) hi
    · exact hno f hf hi
  · obtain ⟨x1, x2, _, _, rfl, hf⟩ := starts_sound h' hfit
    obtain ⟨r', hr', m, g, rfl, hm, hg⟩ := fit_start fit_lineWord hf
    exact word (y := x2) hx hr' hg (.inl hm) (by simp)
  · obtain ⟨x1, x2, _, _, rfl, hf⟩ := starts_sound h' hfit
    obtain ⟨r', hr', m, g, rfl, hm, hg⟩ := fit_start fit_command hf
    exact word (y := x2) hx hr' hg (.inl hm) (by simp)
  · rw [eq_of_beq h'] at hfit
    obtain ⟨r', hr', m, g, hm, hg, rfl⟩ := fit_loop hfit
    exact word (y := []) hx hr' hg (.inr hm) (by simp)
  · exact call_not_bad hl (.inl rfl) hc ha hr hn hz hx (callBad_sound hl hfit h')

end Verif.Lemmas
