import Verif.Lemmas.RazorSingleRule
/-!
# The rule of the commands with an action between braces in razor
-/

namespace Verif.Lemmas
open Verif Regex Spec Engine Razor Table Prepare _root_.Verif.Insert

/-- The beginning of the commands of a single line, up to the action. -/
def lineHeadRe : Re :=
  .seq (.seq (.seq (.seq (.seq (.seq (.seq (startRe lineWordRe) blankRe) (.opt true assignedRe)) blankRe)
    (.group c!"expr" (.seq (.cls lineCls) (.star true (.cls lineCls))))) blankRe) (lit ')')) blankRe

def braceRe : Re :=
  .seq (.seq (.seq (.seq (.seq (.seq lineHeadRe (lit '{')) blankRe) (.group c!"action" (.seq (.cls lineCls) (.star false (.cls lineCls))))) (lit '}')) blankRe) (.eol true)

theorem brace_entry : (table.drop 27).take 1 = [(c!"Single line command - @command (expr) { action }",
    c!"{{${reduce1} ${command} ${assign}${expr} ${reduce2}}}${action}{{${reduce1} end ${reduce2}}}", 1, braceRe)] := by
  decide +kernel

theorem run_lineHead {letter : Char → Bool} (hl : PlainLetters letter) {r : Text × Text × Text} (hr : r ∈ reduceSigns) {m g w x s k q : Text} (hm : m ∈ lineWords)
    (hg : ∀ d ∈ g, isBlank d = true) (hw : ∀ d ∈ w, isBlank d = true) (hx : Assignment letter x) (hs : s ≠ []) (hc : ∀ d, s.head? = some d → isBlank d = false)
    (hn : '\n' ∉ s) (ha : ¬ c!":=" <:+: s) (hk : ∀ d ∈ k, isBlank d = true) (hq : ∀ d, q.head? = some d → isBlank d = false) (hb : LineFree (k ++ q)) :
    ∃ d : Caps, (groupOf d c!"expr" = s ∧ groupOf d c!"command" = m ∧ groupOf d c!"assign" = x ∧ groupOf d c!"reduce1" = r.2.1 ∧ groupOf d c!"reduce2" = r.2.2) ∧
      ∀ {β : Type} (p : Option Char) (K : Cont β) (res : β), (∀ p, K p q d = some res) →
        run letter lineHeadRe p ('@' :: (r.1 ++ (m ++ (g ++ '(' :: (w ++ (x ++ (s ++ ')' :: (k ++ q)))))))) [] K = some res := by
  obtain ⟨c₀, t, rfl⟩ := List.exists_cons_of_ne_nil hs
  obtain ⟨d, h1, h2, h3, hrun⟩ := run_reduce_assign hr
  obtain ⟨m₀, mt, hm0, hm1, hm2⟩ : ∃ c t, m = c :: t ∧ c ≠ '-' ∧ c ≠ '_' := by
    simp only [lineWords, List.mem_cons, List.not_mem_nil, or_false] at hm
    rcases hm with rfl | rfl | rfl <;> exact ⟨_, _, rfl, by decide, by decide⟩
  refine ⟨(c!"expr", c₀ :: t) :: withAssign x ((c!"command", m) :: d), ⟨?_, ?_, ?_, ?_, ?_⟩, ?_⟩
  · simp [groupOf]
  · unfold withAssign
    split <;> simp [groupOf]
  · unfold withAssign
    split
    · rename_i hx0
      rw [hx0]
      refine Eq.trans ?_ h3
      simp [groupOf]
    · simp [groupOf]
  · rw [← h1]
    unfold withAssign
    split <;> simp [groupOf]
  · rw [← h2]
    unfold withAssign
    split <;> simp [groupOf]
  · intro β p K res hK
    unfold lineHeadRe startRe
    simp only [run_seq_eq, run_lit_cons]
    have split : m ++ (g ++ '(' :: (w ++ (x ++ ((c₀ :: t) ++ ')' :: (k ++ q))))) = m₀ :: (mt ++ (g ++ '(' :: (w ++ (x ++ ((c₀ :: t) ++ ')' :: (k ++ q)))))) := by
      rw [hm0]
      rfl
    rw [split]
    refine hrun letter _ _ _ _ _ hm1 hm2 (fun p' => ?_)
    rw [← split, run_group_eq]
    refine run_lineWord letter hm (fun p => ?_)
    rw [take_here]
    refine run_blanks hg (by rintro _ ⟨⟩; rfl) (fun p => ?_)
    rw [run_lit_cons]
    refine run_blanks hw (fun e he => ?_) (fun p => ?_)
    · cases hx with
      | none => exact hc e he
      | one n w v _ _ _ =>
        cases he
        rfl
      | two n w n' w' v _ _ _ _ _ =>
        cases he
        rfl
    refine run_assign hl hx hc ha (fun p => ?_)
    refine run_blanks (w := []) (by simp) (fun e he => hc e (by cases he; rfl)) (fun p => ?_)
    rw [run_group_eq, run_seq_eq]
    change run letter (.cls lineCls) p (c₀ :: (t ++ ')' :: (k ++ q))) _ _ = _
    rw [run_cls_cons ((has_line letter _).mpr (fun e => hn (by rw [e]; simp)))]
    refine run_star_back (fun ch h => (has_line letter _).mpr (fun e => hn (by rw [← e]; simp [h]))) ?_ ?_
    · intro v1 v2 hv' hv1 hl1 p
      refine Option.eq_none_iff_forall_ne_some.mpr (fun res hres => ?_)
      obtain ⟨y, q', rfl, hy⟩ := fit_shut hres
      obtain ⟨e, v1, rfl⟩ := List.exists_cons_of_ne_nil hv1
      simp only [List.cons_append, List.cons.injEq] at hv'
      rcases List.mem_append.mp (hb (v1 ++ y) q' (by rw [hv'.2]; simp)) with hm | hm
      · exact (has_line letter _).mp (hl1 _ (List.mem_cons_of_mem _ hm)) rfl
      · exact absurd (hy _ hm) (by decide)
    · refine run_blanks (w := []) (by simp) (by rintro _ ⟨⟩; rfl) (fun p => ?_)
      rw [run_lit_cons]
      refine run_blanks hk hq (fun p => ?_)
      have e1 := take_here (c₀ :: t) (')' :: (k ++ q))
      exact Eq.trans (congrArg (fun z => K p q ((c!"expr", z) :: withAssign x ((c!"command", m) :: d))) e1) (hK p)

theorem matchAt_brace {letter : Char → Bool} (hl : PlainLetters letter) {r : Text × Text × Text} (hr : r ∈ reduceSigns) {m g w x s k k' action u b : Text} (hm : m ∈ lineWords)
    (hg : ∀ d ∈ g, isBlank d = true) (hw : ∀ d ∈ w, isBlank d = true) (hx : Assignment letter x) (hs : s ≠ []) (hc : ∀ d, s.head? = some d → isBlank d = false)
    (hn : '\n' ∉ s) (ha : ¬ c!":=" <:+: s) (hk : ∀ d ∈ k, isBlank d = true) (hk' : ∀ d ∈ k', isBlank d = true) (hact : BracedAction action) (hu : ∀ d ∈ u, isBlank d = true)
    (hb : LineFree (k ++ '{' :: (k' ++ (action ++ '}' :: (u ++ b))))) (hend : b = [] ∨ b.head? = some '\n') (p : Option Char) :
    ∃ caps, matchAt letter braceRe p ('@' :: (r.1 ++ (m ++ (g ++ '(' :: (w ++ (x ++ (s ++ ')' :: (k ++ '{' :: (k' ++ (action ++ '}' :: (u ++ b)))))))))) ) =
        some (('@' :: (r.1 ++ (m ++ (g ++ '(' :: (w ++ (x ++ (s ++ ')' :: (k ++ '{' :: (k' ++ (action ++ '}' :: (u ++ b)))))))))) ).length - b.length, caps) ∧
      groupOf caps c!"expr" = s ∧ groupOf caps c!"command" = m ∧ groupOf caps c!"assign" = x ∧ groupOf caps c!"reduce1" = r.2.1 ∧ groupOf caps c!"reduce2" = r.2.2 ∧
      groupOf caps c!"action" = action := by
  obtain ⟨d, ⟨g1, g2, g3, g4, g5⟩, hrun⟩ := run_lineHead (q := '{' :: (k' ++ (action ++ '}' :: (u ++ b)))) hl hr hm hg hw hx hs hc hn ha hk (by rintro _ ⟨⟩; rfl) hb
  obtain ⟨a₀, at', hact0⟩ := List.exists_cons_of_ne_nil hact.ne
  refine ⟨(c!"action", action) :: d, ?_, ?_, ?_, ?_, ?_, ?_, ?_⟩
  · unfold matchAt braceRe
    simp only [run_seq_eq]
    refine hrun _ _ _ (fun p => ?_)
    rw [run_lit_cons]
    refine run_blanks hk' (fun e he => ?_) (fun p => ?_)
    · rw [hact0] at he
      cases he
      exact hact.first _ (by rw [hact0]; rfl)
    · have e2 := take_here action ('}' :: (u ++ b))
      rw [run_group_eq, run_seq_eq]
      have e3 : action ++ '}' :: (u ++ b) = a₀ :: (at' ++ '}' :: (u ++ b)) := by rw [hact0]; rfl
      rw [e3, run_cls_cons ((has_line letter _).mpr (fun e => hact.line (by rw [hact0, e]; simp)))]
      refine run_star_lazy (fun ch h => (has_line letter _).mpr (fun e => hact.line (by rw [hact0, ← e]; simp [h]))) ?_ (fun p => ?_)
      · intro u1 u2 h hne p
        obtain ⟨e, u2, rfl⟩ := List.exists_cons_of_ne_nil hne
        exact run_lit_ne letter (fun he : e = '}' => hact.brace (by rw [hact0, h, he]; simp)) _ _ _ _
      · rw [← e3, e2, run_lit_cons]
        refine run_blanks hu (fun e he => ?_) (fun p => ?_)
        · rcases hend with rfl | hend
          · cases he
          · rw [hend] at he
            cases he
            rfl
        · have hstop : atStop true b = true := by
            rcases hend with rfl | hend
            · rfl
            · cases b with
              | nil => rfl
              | cons e b =>
                cases hend
                rfl
          simp only [run, hstop, if_true]
  · rw [← g1]; simp [groupOf]
  · rw [← g2]; simp [groupOf]
  · rw [← g3]; simp [groupOf]
  · rw [← g4]; simp [groupOf]
  · rw [← g5]; simp [groupOf]
  · simp [groupOf]

/-- The text of a command with an action between braces, after the delimiter. -/
def braceText (r : Text × Text × Text) (m g w x s k k' action u : Text) : Text :=
  r.1 ++ (m ++ (g ++ '(' :: (w ++ (x ++ (s ++ ')' :: (k ++ '{' :: (k' ++ (action ++ '}' :: u)))))))) 

theorem brace_out {letter : Char → Bool} {parser : Replacement → Text → Text} (hp : Braces letter parser) :
    ∃ out : Text → Caps → Text,
      (∀ x caps, ∃ o, SomeOrder o ∧ out x caps =
        expressionParser letter o true braceRe c!"{{${reduce1} ${command} ${assign}${expr} ${reduce2}}}${action}{{${reduce1} end ${reduce2}}}" x) ∧
      ∀ t, (((generate defaultDelims).drop 27).take 1).foldl (applyRule letter parser) t = Regex.replaceAux letter braceRe out 0 none t := by
  have hlen := congrArg List.length (congrArg (fun l => List.take 1 (List.drop 27 l)) table_eq)
  simp only [← List.map_drop, ← List.map_take, List.length_map, brace_entry] at hlen
  obtain ⟨r, hrule⟩ := List.length_eq_one_iff.mp hlen
  obtain ⟨e', hmem, hc⟩ := rules_compiled 27 1 r (by rw [hrule]; exact List.mem_singleton.mpr rfl)
  rw [brace_entry] at hmem
  rw [List.mem_singleton.mp hmem] at hc
  refine ⟨output parser r, fun x caps => ?_, fun t => ?_⟩
  · obtain ⟨c1, c2, c3, c4⟩ := hc
    obtain ⟨o, o1, o2, o3, ho⟩ := hp r braceRe x c1 c4
    refine ⟨o, ⟨o1, o2, o3⟩, ?_⟩
    unfold output
    have c3' : r.parser = 1 := c3
    rw [if_neg (by rw [c3']; decide), if_neg, ho, c2, c3']
    · rfl
    · rw [c1]
      exact (by decide : ¬ c!"Single line command - @command (expr) { action }" = emailName)
  · rw [hrule, List.foldl_cons, List.foldl_nil, applyRule_compiled hc]
    rfl

theorem brace_begins (letter : Char → Bool) (p : Option Char) (ch : Char) (t : Text) (h : ch ≠ '@') : matchAt letter braceRe p (ch :: t) = none :=
  begins_at (by decide +kernel) p ch t h

theorem rule_brace {letter : Char → Bool} (hl : SignLetters letter) {parser : Replacement → Text → Text} (hp : Braces letter parser) {a m g w x s k k' action u b v : Text}
    {r : Text × Text × Text} {e : Expr} (ha : '@' ∉ a) (hm : m ∈ lineWords) (h : Cmd letter m g w x s [] [] v r e) (hk : ∀ d ∈ k, isBlank d = true) (hk' : ∀ d ∈ k', isBlank d = true)
    (hact : BracedAction action) (hsl : ¬ c!".slice" <:+: action) (hu : ∀ d ∈ u, isBlank d = true) (hb : LineFree (k ++ '{' :: (k' ++ (action ++ '}' :: (u ++ b)))))
    (hend : b = [] ∨ b.head? = some '\n') (hat : '@' ∉ b) :
    (((generate defaultDelims).drop 27).take 1).foldl (applyRule letter parser) (a ++ '@' :: (braceText r m g w x s k k' action u ++ b)) =
      a ++ (singleCode r m x (mu v) action ++ b) := by
  obtain ⟨out, h1, h2⟩ := brace_out hp
  have hsrc := source_src hl h.ins.source
  have e1 : ∀ b, '@' :: (braceText r m g w x s k k' action u ++ b) = '@' :: (r.1 ++ (m ++ (g ++ '(' :: (w ++ (x ++ (s ++ ')' :: (k ++ '{' :: (k' ++ (action ++ '}' :: (u ++ b)))))))))) := by
    simp [braceText]
  rw [h2]
  refine replaceAux_matched (brace_begins letter) ha (fun p => ?_) (replaceAux_plain (brace_begins letter) _ hat) none
  obtain ⟨caps, m1, _⟩ := matchAt_brace hl.1 h.signs hm h.gap h.blanks h.assign hsrc.ne hsrc.first hsrc.line h.ins.noAssign hk hk' hact hu hb hend p
  refine ⟨caps, ?_, ?_⟩
  · rw [e1, m1, ← e1]
    congr 2
    simp only [List.length_cons, List.length_append]
    omega
  · obtain ⟨o, ho, eo⟩ := h1 ('@' :: braceText r m g w x s k k' action u) caps
    rw [eo]
    refine parsed_as (res := fun c => singleCode r m x c action) hl ho h.ins h.value (by simp) hsrc.ne ?_ (single_slice hl h hsl)
    have hb' : LineFree (k ++ '{' :: (k' ++ (action ++ '}' :: (u ++ [])))) := by
      intro y z hy
      exact hb y (z ++ b) (by
        have e2 : k ++ '{' :: (k' ++ (action ++ '}' :: (u ++ b))) = (k ++ '{' :: (k' ++ (action ++ '}' :: (u ++ [])))) ++ b := by simp
        rw [e2, hy]
        simp)
    obtain ⟨caps, m1, m2, m3, m4, m5, m6, m7⟩ := matchAt_brace hl.1 h.signs hm h.gap h.blanks h.assign hsrc.ne hsrc.first hsrc.line h.ins.noAssign hk hk' hact hu hb' (.inl rfl) none
    refine ⟨caps, ?_, m2, fun code c hd => ?_⟩
    · have := e1 []
      simp only [List.append_nil] at this m1
      rw [this]
      exact m1
    · rw [expand_single caps hd, m3, m4, m5, m6, m7]
      rfl

/-- The rules of the commands that end with a semicolon. -/
theorem rules_before_brace {letter : Char → Bool} (parser : Replacement → Text → Text) {t : Text} (h : ';' ∉ t) :
    (((generate defaultDelims).drop 19).take 8).foldl (applyRule letter parser) t = t := by
  refine rules_idle parser 19 8 [[';']] (by decide +kernel) ?_
  intro f hf
  rw [List.mem_singleton.mp hf]
  exact fun hi => h (hi.subset (List.mem_singleton.mpr rfl))

theorem rules_after_brace {letter : Char → Bool} (parser : Replacement → Text → Text) {t : Text} (hat : '@' ∉ t)
    (hno : ∀ f ∈ [c!"`", c!"\"<<", c!"\"{{", c!"_=!"], ¬ f <:+: t) : ((generate defaultDelims).drop 28).foldl (applyRule letter parser) t = t := by
  rw [split_rules 28 76, rules_idle parser 28 76 [['@']] (by decide +kernel)]
  · exact rules_after_slice parser hat hno
  · intro f hf
    rw [List.mem_singleton.mp hf]
    exact fun hi => hat (hi.subset (List.mem_singleton.mpr rfl))

end Verif.Lemmas
