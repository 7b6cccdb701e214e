import Verif.Lemmas.RazorParenMatch
import Verif.Lemmas.RazorBlockAuto
/-!
# The matches of the commands with an expression in razor
-/

namespace Verif.Lemmas
open Verif Regex Spec Engine Razor Table

def elseIfRe : Re := .seq (.seq (.seq (litRe c!"else") blankRe) (lit 'i')) (lit 'f')

/-- The words of the commands. -/
def commandRe : Re :=
  .alt (litRe c!"if") (.alt elseIfRe (.alt (litRe c!"block") (.alt (litRe c!"with") (.alt (litRe c!"define") (litRe c!"range")))))

def headRe : Re := .seq (.seq (.seq (.seq (.seq (lit '@') reduceRe) (.group c!"command" commandRe)) blankRe) (lit '(')) blankRe

def idCls : Cls := ⟨false, [.letter, .digit, .chr '_']⟩

def sepCls : Cls := ⟨false, [.chr ' ', .chr '\t', .chr ',']⟩

def variableRe : Re := .seq (.seq (lit '$') (.seq (.cls idCls) (.star true (.cls idCls)))) (.star true (.cls sepCls))

def assignedRe : Re := .group c!"assign" (.seq (.seq (.seq (.seq variableRe (.opt true (.seq variableRe .eps))) (lit ':')) (lit '=')) blankRe)

/-- A command with an expression made of the characters of a class. -/
def cmdRe (K : Cls) : Re :=
  .seq (.seq (.seq (.seq (.seq (.seq headRe (.opt true assignedRe)) blankRe) (.group c!"expr" (.seq (.cls K) (.star true (.cls K))))) blankRe) (lit ')')) blankRe

theorem cmd_entry : (table.drop 35).take 1 = [(c!"Command(expr)", c!"{{${reduce1} ${command} ${assign}${expr} ${reduce2}}}", 1, cmdRe lineCls)] := by
  decide +kernel

/-- The classes of the next rules. -/
def laterCls : List Cls :=
  [atCls, ⟨true, [.chr '@', .chr ';', .chr '\n']⟩, ⟨true, [.chr '@', .chr '{', .chr '\n']⟩, ⟨true, [.chr '@', .chr ';', .chr '{', .chr '\n']⟩,
    ⟨true, [.chr '@', .chr ';', .chr '{', .chr '\n', .chr '\'', .chr '`']⟩, ⟨false, [.letter, .chr '_', .chr '.']⟩, lineCls]

theorem cmd_entries : ((table.drop 36).take 7).map (·.2.2.2) = laterCls.map cmdRe := by
  decide +kernel

/-! ## The words -/

theorem run_command {β : Type} (letter : Char → Bool) {m s : Text} (h : CommandWord m) {p : Option Char} {c : Caps} {k : Cont β} {res : β}
    (hk : ∀ p', k p' s c = some res) : run letter commandRe p (m ++ s) c k = some res := by
  have dis : ∀ {m m' : Text} (t : Text), m.head? ≠ m'.head? → m ≠ [] → m' ≠ [] → ¬ m <+: m' ++ t := by
    intro m m' t hne h1 h2 ⟨u, hu⟩
    cases m with
    | nil => exact h1 rfl
    | cons x m =>
      cases m' with
      | nil => exact h2 rfl
      | cons y m' =>
        simp only [List.cons_append, List.cons.injEq] at hu
        exact hne (by simp [hu.1])
  have other : ∀ {m' : Text} (t : Text), m' ≠ [] → m'.head? ≠ some 'e' → run letter elseIfRe p (m' ++ t) c k = none := by
    intro m' t h1 h2
    unfold elseIfRe
    rw [run_seq_eq, run_seq_eq, run_seq_eq, run_word_no letter (dis t (fun h => h2 h.symm) (by decide) h1)]
  unfold commandRe
  simp only [run_alt_eq]
  cases h with
  | word m hm =>
    simp only [List.mem_cons, List.not_mem_nil, or_false] at hm
    rcases hm with rfl | rfl | rfl | rfl | rfl
    · rw [run_word_yes, hk]
      rfl
    · rw [run_word_no letter (dis s (by decide) (by decide) (by decide)), other s (by decide) (by decide), run_word_no letter (dis s (by decide) (by decide) (by decide)),
        run_word_yes, hk]
      rfl
    · rw [run_word_no letter (dis s (by decide) (by decide) (by decide)), other s (by decide) (by decide), run_word_no letter (dis s (by decide) (by decide) (by decide)),
        run_word_no letter (dis s (by decide) (by decide) (by decide)), run_word_no letter (dis s (by decide) (by decide) (by decide)), run_word_yes, hk]
      rfl
    · rw [run_word_no letter (dis s (by decide) (by decide) (by decide)), other s (by decide) (by decide), run_word_yes, hk]
      rfl
    · rw [run_word_no letter (dis s (by decide) (by decide) (by decide)), other s (by decide) (by decide), run_word_no letter (dis s (by decide) (by decide) (by decide)),
        run_word_no letter (dis s (by decide) (by decide) (by decide)), run_word_yes, hk]
      rfl
  | elseIf w _ hw =>
    rw [List.append_assoc, run_word_no letter (dis _ (by decide) (by decide) (by decide))]
    have : run letter elseIfRe p (c!"else" ++ (w ++ c!"if" ++ s)) c k = some res := by
      unfold elseIfRe
      rw [run_seq_eq, run_seq_eq, run_seq_eq, run_word_yes, List.append_assoc]
      refine run_blanks hw (by rintro _ ⟨⟩; rfl) (fun p => ?_)
      simp only [List.cons_append, List.nil_append]
      rw [run_lit_cons, run_lit_cons]
      exact hk _
    rw [this]
    rfl

/-- The words of the matches. -/
def WordLike (m : Text) : Prop :=
  m ∈ [c!"if", c!"with", c!"range", c!"block", c!"define"] ∨ ∃ w, (∀ c ∈ w, isBlank c = true) ∧ m = c!"else" ++ (w ++ c!"if")

theorem fit_word {letter : Char → Bool} {w : Text} {p : Option Char} {x q : Text} {c c' : Caps} (h : Fit letter (litRe w) p x q c c') : x = w := by
  have two : ∀ {a b : Re} {p : Option Char} {x q : Text} {c c' : Caps}, Fit letter (mkSeq a b) p x q c c' →
      ∃ y z d e, x = y ++ z ∧ Fit letter a p y (z ++ q) c d ∧ Fit letter b e z q d c' := by
    intro a b p x q c c' h
    cases a
    case eps => exact ⟨[], x, c, p, rfl, .eps, h⟩
    all_goals
      obtain ⟨y, z, d, rfl, h1, h2⟩ := fit_seq h
      exact ⟨y, z, d, _, rfl, h1, h2⟩
  have aux : ∀ (w : Text) (r : Re) (u : Text), (∀ {p : Option Char} {x q : Text} {c c' : Caps}, Fit letter r p x q c c' → x = u) →
      ∀ {p : Option Char} {x q : Text} {c c' : Caps}, Fit letter (w.foldl (fun r ch => mkSeq r (lit ch)) r) p x q c c' → x = u ++ w := by
    intro w
    induction w with
    | nil =>
      intro r u hr p x q c c' h
      rw [List.append_nil]
      exact hr h
    | cons ch w ih =>
      intro r u hr p x q c c' h
      have := ih (mkSeq r (lit ch)) (u ++ [ch]) (fun h => by
        obtain ⟨y, z, _, _, rfl, h1, h2⟩ := two h
        rw [hr h1, (fit_lit h2).1]) h
      simpa using this
  exact aux w .eps [] (fun h => by cases h; rfl) h

theorem fit_blanks {letter : Char → Bool} {p : Option Char} {x q : Text} {c c' : Caps} (h : Fit letter blankRe p x q c c') : ∀ d ∈ x, isBlank d = true := fun d hd => by
  rw [← has_blank letter]
  exact fit_star_all h d hd

theorem fit_command {letter : Char → Bool} {p : Option Char} {x q : Text} {c c' : Caps} (h : Fit letter commandRe p x q c c') : WordLike x := by
  unfold commandRe at h
  cases h with
  | left h => exact .inl (by rw [fit_word h]; decide)
  | right h =>
    cases h with
    | left h =>
      obtain ⟨x, x3, _, rfl, h, h3⟩ := fit_seq h
      obtain ⟨x, x2, _, rfl, h, h2⟩ := fit_seq h
      obtain ⟨x, w, _, rfl, h, hw⟩ := fit_seq h
      exact .inr ⟨w, fit_blanks hw, by rw [fit_word h, (fit_lit h2).1, (fit_lit h3).1]; simp⟩
    | right h =>
      cases h with
      | left h => exact .inl (by rw [fit_word h]; decide)
      | right h =>
        cases h with
        | left h => exact .inl (by rw [fit_word h]; decide)
        | right h =>
          cases h with
          | left h => exact .inl (by rw [fit_word h]; decide)
          | right h => exact .inl (by rw [fit_word h]; decide)

/-- How a match begins. -/
theorem fit_cmd {letter : Char → Bool} {K : Cls} {p : Option Char} {x q : Text} {c c' : Caps} (h : Fit letter (cmdRe K) p x q c c') :
    ∃ r ∈ reduceSigns, ∃ m g y, x = '@' :: (r.1 ++ (m ++ (g ++ '(' :: y))) ∧ WordLike m ∧ ∀ d ∈ g, isBlank d = true := by
  obtain ⟨x, x7, _, rfl, h, _⟩ := fit_seq h
  obtain ⟨x, x6, _, rfl, h, _⟩ := fit_seq h
  obtain ⟨x, x5, _, rfl, h, _⟩ := fit_seq h
  obtain ⟨x, x4, _, rfl, h, _⟩ := fit_seq h
  obtain ⟨x, x3, _, rfl, h, _⟩ := fit_seq h
  obtain ⟨x, x2, _, rfl, h, _⟩ := fit_seq h
  obtain ⟨x, x1, _, rfl, h, _⟩ := fit_seq h
  obtain ⟨x, y3, _, rfl, h, h3⟩ := fit_seq h
  obtain ⟨x, g, _, rfl, h, hg⟩ := fit_seq h
  obtain ⟨x, m, _, rfl, h, hm⟩ := fit_seq h
  obtain ⟨r, hr, rfl⟩ := fit_signs h
  obtain ⟨_, _, hm⟩ := fit_group hm
  refine ⟨r, hr, m, g, x1 ++ (x2 ++ (x3 ++ (x4 ++ (x5 ++ (x6 ++ x7))))), ?_, fit_command hm, fit_blanks hg⟩
  rw [(fit_lit h3).1]
  simp

/-! ## The assignments -/

theorem has_id (letter : Char → Bool) (c : Char) : idCls.has letter c = varChar letter c := by
  simp [idCls, Cls.has, Item.has, varChar, Bool.or_assoc]

theorem has_sep (letter : Char → Bool) (c : Char) : sepCls.has letter c = true ↔ c ∈ c!" \t," := by
  simp [sepCls, Cls.has, Item.has]

theorem fit_variable {letter : Char → Bool} (hp : letter ')' = false) {p : Option Char} {x q : Text} {c c' : Caps} (h : Fit letter variableRe p x q c c') : ')' ∉ x := by
  obtain ⟨x, x3, _, rfl, h, h3⟩ := fit_seq h
  obtain ⟨x, x2, _, rfl, h, h2⟩ := fit_seq h
  obtain ⟨y1, y2, _, rfl, g1, g2⟩ := fit_seq h2
  have hid : idCls.has letter ')' = false := by rw [has_id]; simp [varChar, hp]
  intro hm
  simp only [List.mem_append] at hm
  rcases hm with (hm | hm | hm) | hm
  · rw [(fit_lit h).1] at hm
    exact absurd hm (by decide)
  · cases g1 with
    | cls hk =>
      rw [List.mem_singleton] at hm
      rw [← hm, hid] at hk
      cases hk
  · have := fit_star_all g2 _ hm
    rw [hid] at this
    cases this
  · exact absurd ((has_sep letter _).mp (fit_star_all h3 _ hm)) (by decide)

theorem fit_assigned {letter : Char → Bool} (hp : letter ')' = false) {p : Option Char} {x q : Text} {c c' : Caps} (h : Fit letter assignedRe p x q c c') :
    ')' ∉ x ∧ c!":=" <:+: x := by
  obtain ⟨_, _, h⟩ := fit_group h
  obtain ⟨x, x4, _, rfl, h, h4⟩ := fit_seq h
  obtain ⟨x, x3, _, rfl, h, h3⟩ := fit_seq h
  obtain ⟨x, x2, _, rfl, h, h2⟩ := fit_seq h
  obtain ⟨x, x1, _, rfl, h, h1⟩ := fit_seq h
  obtain ⟨rfl, _⟩ := fit_lit h2
  obtain ⟨rfl, _⟩ := fit_lit h3
  refine ⟨?_, x ++ x1, x4, by simp⟩
  have n1 : ')' ∉ x1 := by
    cases h1 with
    | none => simp
    | one g =>
      obtain ⟨y, z, _, rfl, g1, g2⟩ := fit_seq g
      cases g2
      rw [List.append_nil]
      exact fit_variable hp g1
  have n4 : ')' ∉ x4 := fun hm => absurd (fit_blanks h4 _ hm) (by decide)
  simp [fit_variable hp h, n1, n4]

theorem run_variable {β : Type} {letter : Char → Bool} {n w t : Text} (hn : AssignedName letter n) (hw : Separators w) (ht : ∀ d, t.head? = some d → d ∉ c!" \t," ∧ varChar letter d = false)
    (hsep : ∀ d ∈ c!" \t,", varChar letter d = false) {p : Option Char} {c : Caps} {k : Cont β} {res : β} (hk : ∀ p, k p t c = some res) :
    run letter variableRe p ('$' :: (n ++ (w ++ t))) c k = some res := by
  obtain ⟨hne, hall⟩ := hn
  obtain ⟨c₀, n, rfl⟩ := List.exists_cons_of_ne_nil hne
  unfold variableRe
  rw [run_seq_eq, run_seq_eq, run_lit_cons, run_seq_eq, List.cons_append, run_cls_cons (by rw [has_id]; exact hall _ (List.mem_cons_self ..))]
  refine run_star_cls (fun d hd => by rw [has_id]; exact hall d (List.mem_cons_of_mem _ hd)) (fun d hd => ?_) ?_
  · rw [has_id]
    cases w with
    | nil => exact (ht d hd).2
    | cons e w =>
      cases hd
      exact hsep _ (hw _ (List.mem_cons_self ..))
  · refine run_star_cls (fun d hd => (has_sep letter d).mpr (hw d hd)) (fun d hd => ?_) (hk _)
    rw [Bool.eq_false_iff]
    exact fun h => (ht d hd).1 ((has_sep letter d).mp h)

/-- The captures with an assignment. -/
def withAssign (x : Text) (c : Caps) : Caps := if x = [] then c else (c!"assign", x) :: c

theorem run_eps_eq {β : Type} (letter : Char → Bool) (p : Option Char) (s : Text) (c : Caps) (k : Cont β) : run letter .eps p s c k = k p s c := by
  rw [Regex.run]

theorem run_assign {β : Type} {letter : Char → Bool} (hp : PlainLetters letter) {x s b : Text} (hx : Assignment letter x) (hs : ∀ d, s.head? = some d → isBlank d = false)
    (ha : ¬ c!":=" <:+: s) {p : Option Char} {c : Caps} {k : Cont β} {res : β} (hk : ∀ p, k p (s ++ ')' :: b) (withAssign x c) = some res) :
    run letter (.opt true assignedRe) p (x ++ (s ++ ')' :: b)) c k = some res := by
  have plain : ∀ d ∈ c!")$: \t,", letter d = false := by
    intro d hd
    rw [hp.1 d ((by decide : ∀ d ∈ c!")$: \t,", d.toNat < 128) d hd)]
    exact (by decide : ∀ d ∈ c!")$: \t,", d.isAlpha = false) d hd
  have hvar : ∀ d ∈ c!"$: \t,", varChar letter d = false := by
    intro d hd
    unfold varChar
    rw [plain d ((by decide : ∀ d ∈ c!"$: \t,", d ∈ c!")$: \t,") d hd)]
    exact (by decide : ∀ d ∈ c!"$: \t,", (false || d.isDigit || d == '_') = false) d hd
  have hsep : ∀ d ∈ c!" \t,", varChar letter d = false := fun d hd => hvar d ((by decide : ∀ d ∈ c!" \t,", d ∈ c!"$: \t,") d hd)
  have hfirst : ∀ d, (s ++ ')' :: b).head? = some d → isBlank d = false := by
    intro d hd
    cases s with
    | nil =>
      cases hd
      rfl
    | cons e s => exact hs d hd
  rw [run_opt_eq]
  cases hx with
  | none =>
    refine (Option.or_eq_right_of_none ?_).trans (hk _)
    refine Option.eq_none_iff_forall_ne_some.mpr (fun res hres => ?_)
    obtain ⟨x, q, c', hx, hf, hq⟩ := run_sound letter _ hres
    obtain ⟨h1, h2⟩ := fit_assigned (plain _ (by decide)) hf
    rw [List.nil_append] at hx
    rcases List.append_eq_append_iff.mp hx with ⟨z, h3, h4⟩ | ⟨z, h3, h4⟩
    · cases z with
      | nil => exact ha (by rw [List.append_nil] at h3; rw [← h3]; exact h2)
      | cons d z =>
        simp only [List.cons_append, List.cons.injEq] at h4
        exact h1 (by rw [h3, ← h4.1]; simp)
    · exact ha (h2.trans ⟨[], z, by rw [h3]; simp⟩)
  | one n w v hn hw hv =>
    suffices h : run letter assignedRe p ('$' :: (n ++ (w ++ (c!":=" ++ v))) ++ (s ++ ')' :: b)) c k = some res by
      rw [h]
      rfl
    have e1 : '$' :: (n ++ (w ++ (c!":=" ++ v))) ++ (s ++ ')' :: b) = '$' :: (n ++ (w ++ (':' :: '=' :: (v ++ (s ++ ')' :: b))))) := by simp
    have e2 := take_here ('$' :: (n ++ (w ++ (c!":=" ++ v)))) (s ++ ')' :: b)
    rw [e1] at e2
    unfold assignedRe
    rw [run_group_eq, run_seq_eq, run_seq_eq, run_seq_eq, run_seq_eq, e1]
    refine run_variable hn hw (fun d hd => ?_) hsep (fun p => ?_)
    · cases hd
      exact ⟨by decide, hvar _ (by decide)⟩
    · rw [run_opt_eq, run_seq_eq]
      unfold variableRe
      rw [run_seq_eq, run_seq_eq, run_lit_ne _ (by decide), Option.none_or, run_lit_cons, run_lit_cons]
      exact run_blanks hv hfirst (fun p => by rw [e2]; have := hk p; rw [withAssign, if_neg (by simp)] at this; exact this)
  | two n w n' w' v hn hw hn' hw' hv =>
    suffices h : run letter assignedRe p ('$' :: (n ++ (w ++ '$' :: (n' ++ (w' ++ (c!":=" ++ v))))) ++ (s ++ ')' :: b)) c k = some res by
      rw [h]
      rfl
    have e1 : '$' :: (n ++ (w ++ '$' :: (n' ++ (w' ++ (c!":=" ++ v))))) ++ (s ++ ')' :: b) =
        '$' :: (n ++ (w ++ ('$' :: (n' ++ (w' ++ (':' :: '=' :: (v ++ (s ++ ')' :: b)))))))) := by simp
    have e2 := take_here ('$' :: (n ++ (w ++ '$' :: (n' ++ (w' ++ (c!":=" ++ v)))))) (s ++ ')' :: b)
    rw [e1] at e2
    unfold assignedRe
    rw [run_group_eq, run_seq_eq, run_seq_eq, run_seq_eq, run_seq_eq, e1]
    refine run_variable hn hw (fun d hd => ?_) hsep (fun p => ?_)
    · cases hd
      exact ⟨by decide, hvar _ (by decide)⟩
    · rw [run_opt_eq, run_seq_eq]
      have : ∀ {γ : Type} {K : Cont γ} {r : γ}, (∀ p, K p (':' :: '=' :: (v ++ (s ++ ')' :: b))) c = some r) → run letter variableRe p ('$' :: (n' ++ (w' ++ (':' :: '=' :: (v ++ (s ++ ')' :: b)))))) c K = some r := by
        intro γ K r hK
        refine run_variable hn' hw' (fun d hd => ?_) hsep hK
        cases hd
        exact ⟨by decide, hvar _ (by decide)⟩
      rw [this (r := res)]
      · rfl
      · intro p
        rw [run_eps_eq, run_lit_cons, run_lit_cons]
        exact run_blanks hv hfirst (fun p => by rw [e2]; have := hk p; rw [withAssign, if_neg (by simp)] at this; exact this)

/-! ## The match -/

theorem command_first {m : Text} (h : CommandWord m) : ∃ c t, m = c :: t ∧ c ≠ '-' ∧ c ≠ '_' := by
  cases h with
  | word m hm =>
    simp only [List.mem_cons, List.not_mem_nil, or_false] at hm
    rcases hm with rfl | rfl | rfl | rfl | rfl <;> exact ⟨_, _, rfl, by decide, by decide⟩
  | elseIf w _ _ => exact ⟨_, _, rfl, by decide, by decide⟩

theorem matchAt_cmd {letter : Char → Bool} (hl : PlainLetters letter) {r : Text × Text × Text} (hr : r ∈ reduceSigns) {m g w x s v b : Text} (hm : CommandWord m)
    (hg : ∀ d ∈ g, isBlank d = true) (hw : ∀ d ∈ w, isBlank d = true) (hx : Assignment letter x) (hs : s ≠ []) (hc : ∀ d, s.head? = some d → isBlank d = false)
    (hn : '\n' ∉ s) (ha : ¬ c!":=" <:+: s) (hv : ∀ d ∈ v, isBlank d = true) (hb : b = [] ∨ b.head? = some '\n') (p : Option Char) :
    ∃ caps, matchAt letter (cmdRe lineCls) p ('@' :: (r.1 ++ (m ++ (g ++ '(' :: (w ++ (x ++ (s ++ ')' :: (v ++ b)))))))) =
        some (('@' :: (r.1 ++ (m ++ (g ++ '(' :: (w ++ (x ++ (s ++ ')' :: (v ++ b)))))))).length - b.length, caps) ∧
      groupOf caps c!"expr" = s ∧ groupOf caps c!"command" = m ∧ groupOf caps c!"assign" = x ∧ groupOf caps c!"reduce1" = r.2.1 ∧ groupOf caps c!"reduce2" = r.2.2 := by
  obtain ⟨c₀, t, rfl⟩ := List.exists_cons_of_ne_nil hs
  obtain ⟨d, h1, h2, h3, hrun⟩ := run_reduce_assign hr
  obtain ⟨m₀, mt, hm0, hm1, hm2⟩ := command_first hm
  refine ⟨(c!"expr", c₀ :: t) :: withAssign x ((c!"command", m) :: d), ?_, ?_, ?_, ?_, ?_, ?_⟩
  · unfold matchAt cmdRe headRe
    simp only [run_seq_eq, run_lit_cons]
    generalize hlen : some (('@' :: (r.1 ++ (m ++ (g ++ '(' :: (w ++ (x ++ ((c₀ :: t) ++ ')' :: (v ++ b)))))))).length - b.length, _) = res
    have split : m ++ (g ++ '(' :: (w ++ (x ++ ((c₀ :: t) ++ ')' :: (v ++ b))))) = m₀ :: (mt ++ (g ++ '(' :: (w ++ (x ++ ((c₀ :: t) ++ ')' :: (v ++ b)))))) := by
      rw [hm0]
      rfl
    rw [split]
    subst hlen
    refine hrun letter _ _ _ _ _ hm1 hm2 (fun p' => ?_)
    rw [← split, run_group_eq]
    refine run_command letter hm (fun p => ?_)
    rw [take_here]
    refine run_blanks hg (by rintro _ ⟨⟩; rfl) (fun p => ?_)
    rw [run_lit_cons]
    refine run_blanks hw (fun e he => ?_) (fun p => ?_)
    · cases hx with
      | none => exact hc e he
      | one n w v _ _ _ =>
        cases he
        rfl
      | two n w n' w' v _ _ _ _ _ =>
        cases he
        rfl
    refine run_assign hl hx hc ha (fun p => ?_)
    refine run_blanks (w := []) (by simp) (fun e he => hc e (by cases he; rfl)) (fun p => ?_)
    rw [run_group_eq, run_seq_eq, List.cons_append, run_cls_cons ((has_line letter _).mpr (fun e => hn (by rw [e]; simp)))]
    have close : ∀ {β : Type} {k : Cont β} {p : Option Char} {c : Caps} {v : Text} {r : β},
        (run letter blankRe p v c fun p s c => run letter (lit ')') p s c fun p s c => run letter blankRe p s c k) = some r → ∃ y q, v = y ++ ')' :: q ∧ ∀ d ∈ y, isBlank d = true := by
      intro β k p c v r h
      obtain ⟨y, q, c', rfl, hf, hq⟩ := run_sound letter _ h
      obtain ⟨y2, q2, c2, rfl, hf2, _⟩ := run_sound letter _ hq
      obtain ⟨rfl, _⟩ := fit_lit hf2
      exact ⟨y, q2, rfl, fit_blanks hf⟩
    refine run_star_back (fun ch h => (has_line letter _).mpr (fun e => hn (by rw [← e]; simp [h]))) ?_ ?_
    · intro v1 v2 hv' hv1 hl1 p
      refine Option.eq_none_iff_forall_ne_some.mpr (fun res hres => ?_)
      obtain ⟨y, q, rfl, hy⟩ := close hres
      obtain ⟨e, v1, rfl⟩ := List.exists_cons_of_ne_nil hv1
      simp only [List.cons_append, List.cons.injEq] at hv'
      have hno : '\n' ∉ v1 ++ y := by
        intro hm
        rcases List.mem_append.mp hm with hm | hm
        · exact (has_line letter _).mp (hl1 _ (List.mem_cons_of_mem _ hm)) rfl
        · exact absurd (hy _ hm) (by decide)
      have h5 : v ++ b = (v1 ++ y) ++ ')' :: q := by rw [hv'.2]; simp
      have hpar : ')' ∉ v := fun hm => absurd (hv _ hm) (by decide)
      rcases List.append_eq_append_iff.mp h5 with ⟨z, h6, h7⟩ | ⟨z, h6, h7⟩
      · rcases hb with rfl | hb
        · simp at h7
        · cases z with
          | nil =>
            rw [h7] at hb
            cases hb
          | cons f z =>
            rw [h7] at hb
            cases hb
            exact hno (by rw [h6]; simp)
      · cases z with
        | nil =>
          rw [List.nil_append] at h7
          rw [← h7] at hb
          rcases hb with hb | hb <;> cases hb
        | cons f z =>
          simp only [List.cons_append, List.cons.injEq] at h7
          exact hpar (by rw [h6, ← h7.1]; simp)
    · refine run_blanks (w := []) (by simp) (by rintro _ ⟨⟩; rfl) (fun p => ?_)
      rw [run_lit_cons]
      refine run_blanks hv (fun e he => ?_) (fun p => ?_)
      · rcases hb with rfl | hb
        · cases he
        · rw [hb] at he
          cases he
          rfl
      · have := take_here (c₀ :: t) (')' :: (v ++ b))
        show some (_, (c!"expr", List.take (((c₀ :: t) ++ ')' :: (v ++ b)).length - (')' :: (v ++ b)).length) ((c₀ :: t) ++ ')' :: (v ++ b))) :: _) = _
        rw [this]
  · simp [groupOf]
  · unfold withAssign
    split <;> simp [groupOf]
  · unfold withAssign
    split
    · rename_i hx0
      rw [hx0]
      refine Eq.trans ?_ h3
      simp [groupOf]
    · simp [groupOf]
  · rw [← h1]
    unfold withAssign
    split <;> simp [groupOf]
  · rw [← h2]
    unfold withAssign
    split <;> simp [groupOf]

end Verif.Lemmas
