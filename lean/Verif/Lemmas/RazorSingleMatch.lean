import Verif.Lemmas.RazorCallRule
import Verif.Spec.RazorSingleSpec
/-!
# The matches of the commands of a single line in razor
-/

namespace Verif.Lemmas
open Verif Regex Spec Engine Razor Table Prepare _root_.Verif.Insert

/-! ## Lazy repetitions -/

theorem starLoop_lazy {β : Type} {letter : Char → Bool} {K : Cls} {k : Cont β} {v : Text} {c : Caps} {r : β} :
    ∀ (u : Text) (n : Nat) (p : Option Char), (u ++ v).length ≤ n → (∀ ch ∈ u, K.has letter ch = true) →
      (∀ u1 u2, u = u1 ++ u2 → u2 ≠ [] → ∀ p, k p (u2 ++ v) c = none) → (∀ p, k p v c = some r) →
      starLoop (fun p s c k => run letter (.cls K) p s c k) false n p (u ++ v) c k = some r := by
  intro u
  induction u with
  | nil =>
    intro n p _ _ _ hk
    cases n with
    | zero => exact hk p
    | succ n =>
      unfold starLoop
      rw [if_neg (by decide), List.nil_append, hk p]
      rfl
  | cons ch u ih =>
    intro n p hn hu hno hk
    cases n with
    | zero => simp at hn
    | succ n =>
      unfold starLoop
      rw [if_neg (by decide), hno [] (ch :: u) rfl (by simp) p, Option.none_or, List.cons_append, run_cls_cons (hu ch (List.mem_cons_self ..)), if_pos (by simp)]
      exact ih n (some ch) (by simpa using hn) (fun d hd => hu d (List.mem_cons_of_mem _ hd)) (fun u1 u2 h => hno (ch :: u1) u2 (by rw [h]; rfl)) hk

theorem run_star_lazy {β : Type} {letter : Char → Bool} {K : Cls} {k : Cont β} {u v : Text} {p : Option Char} {c : Caps} {r : β}
    (hu : ∀ ch ∈ u, K.has letter ch = true) (hno : ∀ u1 u2, u = u1 ++ u2 → u2 ≠ [] → ∀ p, k p (u2 ++ v) c = none) (hk : ∀ p, k p v c = some r) :
    run letter (.star false (.cls K)) p (u ++ v) c k = some r :=
  starLoop_lazy u _ p (Nat.le_refl _) hu hno hk

/-! ## The rule -/

def singleRe : Re :=
  .seq (.seq (.seq (.seq (.seq (.seq (.seq (.seq (.seq (.seq (startRe lineWordRe) blankRe) (.opt true assignedRe)) blankRe)
    (.group c!"expr" (.seq (.cls lineCls) (.star true (.cls lineCls))))) blankRe) (lit ')')) blankRe)
    (.group c!"action" (.seq (.cls lineCls) (.star false (.cls lineCls))))) blankRe) (lit ';')

theorem single_entry : (table.drop 19).take 1 = [(c!"Single line command - @command (expr) action;",
    c!"{{${reduce1} ${command} ${assign}${expr} ${reduce2}}}${action}{{${reduce1} end ${reduce2}}}", 1, singleRe)] := by
  decide +kernel

theorem run_lineWord {β : Type} (letter : Char → Bool) {m s : Text} (h : m ∈ lineWords) {p : Option Char} {c : Caps} {k : Cont β} {res : β}
    (hk : ∀ p', k p' s c = some res) : run letter lineWordRe p (m ++ s) c k = some res := by
  unfold lineWordRe
  simp only [run_alt_eq]
  simp only [lineWords, List.mem_cons, List.not_mem_nil, or_false] at h
  rcases h with rfl | rfl | rfl
  · rw [run_word_yes, hk]
    rfl
  · rw [run_word_no letter (by simp), Option.none_or, run_word_yes, hk]
    rfl
  · rw [run_word_no letter (by simp), Option.none_or, run_word_no letter (by simp), Option.none_or, run_word_yes, hk]

/-- The semicolon is found after the action only. -/
theorem action_end {β : Type} {letter : Char → Bool} {k : Cont β} {y z : Text} {d : Char} (hy : ';' ∉ y ++ [d]) (hd : isBlank d = false) {p : Option Char} {c : Caps} :
    (run letter blankRe p ((y ++ [d]) ++ z) c fun p s c => run letter (lit ';') p s c k) = none := by
  refine Option.eq_none_iff_forall_ne_some.mpr (fun res hres => ?_)
  obtain ⟨w, q, c', hw, hf, hq⟩ := run_sound letter _ hres
  obtain ⟨y2, q2, c2, rfl, hf2, _⟩ := run_sound letter _ hq
  obtain ⟨rfl, _⟩ := fit_lit hf2
  have hb : ∀ e ∈ w, isBlank e = true := fun e he => by
    have := fit_star_all hf e he
    rwa [has_blank] at this
  rcases List.append_eq_append_iff.mp hw with ⟨t, h1, _⟩ | ⟨t, h1, h2⟩
  · have := hb d (by rw [h1]; simp)
    rw [hd] at this
    cases this
  · cases t with
    | nil =>
      have := hb d (by rw [← List.append_nil w, ← h1]; simp)
      rw [hd] at this
      cases this
    | cons e t =>
      simp only [List.cons_append, List.nil_append, List.cons.injEq] at h2
      exact hy (by rw [h1, ← h2.1]; simp)

theorem matchAt_single {letter : Char → Bool} (hl : PlainLetters letter) {r : Text × Text × Text} (hr : r ∈ reduceSigns) {m g w x s k action u b : Text} (hm : m ∈ lineWords) (hg : ∀ d ∈ g, isBlank d = true)
    (hw : ∀ d ∈ w, isBlank d = true) (hx : Assignment letter x) (hs : s ≠ []) (hc : ∀ d, s.head? = some d → isBlank d = false) (hn : '\n' ∉ s) (ha : ¬ c!":=" <:+: s)
    (hk : ∀ d ∈ k, isBlank d = true) (hact : Action action) (hu : ∀ d ∈ u, isBlank d = true) (hb : LineFree (k ++ (action ++ (u ++ ';' :: b)))) (p : Option Char) :
    ∃ caps, matchAt letter singleRe p ('@' :: (r.1 ++ (m ++ (g ++ '(' :: (w ++ (x ++ (s ++ ')' :: (k ++ (action ++ (u ++ ';' :: b)))))))))) =
        some (('@' :: (r.1 ++ (m ++ (g ++ '(' :: (w ++ (x ++ (s ++ ')' :: (k ++ (action ++ (u ++ ';' :: b)))))))))).length - b.length, caps) ∧
      groupOf caps c!"expr" = s ∧ groupOf caps c!"command" = m ∧ groupOf caps c!"assign" = x ∧ groupOf caps c!"reduce1" = r.2.1 ∧ groupOf caps c!"reduce2" = r.2.2 ∧
      groupOf caps c!"action" = action := by
  obtain ⟨c₀, t, rfl⟩ := List.exists_cons_of_ne_nil hs
  obtain ⟨d, h1, h2, h3, hrun⟩ := run_reduce_assign hr
  obtain ⟨m₀, mt, hm0, hm1, hm2⟩ : ∃ c t, m = c :: t ∧ c ≠ '-' ∧ c ≠ '_' := by
    simp only [lineWords, List.mem_cons, List.not_mem_nil, or_false] at hm
    rcases hm with rfl | rfl | rfl <;> exact ⟨_, _, rfl, by decide, by decide⟩
  obtain ⟨a₀, at', hact0⟩ := List.exists_cons_of_ne_nil hact.ne
  generalize hT : k ++ (action ++ (u ++ ';' :: b)) = T at hb ⊢
  refine ⟨(c!"action", action) :: (c!"expr", c₀ :: t) :: withAssign x ((c!"command", m) :: d), ?_, ?_, ?_, ?_, ?_, ?_, ?_⟩
  · unfold matchAt singleRe startRe
    simp only [run_seq_eq, run_lit_cons]
    generalize hlen : some (('@' :: (r.1 ++ (m ++ (g ++ '(' :: (w ++ (x ++ ((c₀ :: t) ++ ')' :: T))))))).length - b.length, _) = res
    have split : m ++ (g ++ '(' :: (w ++ (x ++ ((c₀ :: t) ++ ')' :: T)))) = m₀ :: (mt ++ (g ++ '(' :: (w ++ (x ++ ((c₀ :: t) ++ ')' :: T))))) := by
      rw [hm0]
      rfl
    rw [split]
    subst hlen
    refine hrun letter _ _ _ _ _ hm1 hm2 (fun p' => ?_)
    rw [← split, run_group_eq]
    refine run_lineWord letter hm (fun p => ?_)
    rw [take_here]
    refine run_blanks hg (by rintro _ ⟨⟩; rfl) (fun p => ?_)
    rw [run_lit_cons]
    refine run_blanks hw (fun e he => ?_) (fun p => ?_)
    · cases hx with
      | none => exact hc e he
      | one n w v _ _ _ =>
        cases he
        rfl
      | two n w n' w' v _ _ _ _ _ =>
        cases he
        rfl
    refine run_assign hl hx hc ha (fun p => ?_)
    refine run_blanks (w := []) (by simp) (fun e he => hc e (by cases he; rfl)) (fun p => ?_)
    rw [run_group_eq, run_seq_eq, List.cons_append, run_cls_cons ((has_line letter _).mpr (fun e => hn (by rw [e]; simp)))]
    refine run_star_back (fun ch h => (has_line letter _).mpr (fun e => hn (by rw [← e]; simp [h]))) ?_ ?_
    · intro v1 v2 hv' hv1 hl1 p
      refine Option.eq_none_iff_forall_ne_some.mpr (fun res hres => ?_)
      obtain ⟨y, q, rfl, hy⟩ := fit_shut hres
      obtain ⟨e, v1, rfl⟩ := List.exists_cons_of_ne_nil hv1
      simp only [List.cons_append, List.cons.injEq] at hv'
      rcases List.mem_append.mp (hb (v1 ++ y) q (by rw [hv'.2]; simp)) with hm | hm
      · exact (has_line letter _).mp (hl1 _ (List.mem_cons_of_mem _ hm)) rfl
      · exact absurd (hy _ hm) (by decide)
    · refine run_blanks (w := []) (by simp) (by rintro _ ⟨⟩; rfl) (fun p => ?_)
      rw [run_lit_cons, ← hT]
      refine run_blanks hk (fun e he => ?_) (fun p => ?_)
      · rw [hact0] at he
        cases he
        exact hact.first _ (by rw [hact0]; rfl)
      · have e1 := take_here (c₀ :: t) (')' :: (k ++ (action ++ (u ++ ';' :: b))))
        have e2 := take_here action (u ++ ';' :: b)
        rw [run_group_eq, run_seq_eq]
        have e3 : action ++ (u ++ ';' :: b) = a₀ :: (at' ++ (u ++ ';' :: b)) := by rw [hact0]; rfl
        rw [e3, run_cls_cons ((has_line letter _).mpr (fun e => hact.line (by rw [hact0, e]; simp)))]
        refine run_star_lazy (fun ch h => (has_line letter _).mpr (fun e => hact.line (by rw [hact0, ← e]; simp [h]))) ?_ (fun p => ?_)
        · intro u1 u2 h hne p
          obtain ⟨y, d, rfl⟩ : ∃ y d, u2 = y ++ [d] := by
            rcases List.eq_nil_or_concat u2 with rfl | ⟨y, d, rfl⟩
            · exact absurd rfl hne
            · exact ⟨y, d, by simp⟩
          have hl2 : action.getLast? = some d := by rw [hact0, h]; simp [List.getLast?_cons]
          exact action_end (fun hm => hact.semi (by rw [hact0, h]; exact List.mem_cons_of_mem _ (List.mem_append_right _ hm))) (hact.last d hl2)
        · rw [← e3, e2]
          refine run_blanks hu (by rintro _ ⟨⟩; rfl) (fun p => ?_)
          rw [run_lit_cons]
          show some (_, (c!"action", action) :: (c!"expr", List.take (((c₀ :: t) ++ ')' :: (k ++ (action ++ (u ++ ';' :: b)))).length - (')' :: (k ++ (action ++ (u ++ ';' :: b)))).length) ((c₀ :: t) ++ ')' :: (k ++ (action ++ (u ++ ';' :: b))))) :: _) = _
          rw [e1]
  · simp [groupOf]
  · unfold withAssign
    split <;> simp [groupOf]
  · unfold withAssign
    split
    · rename_i hx0
      rw [hx0]
      refine Eq.trans ?_ h3
      simp [groupOf]
    · simp [groupOf]
  · rw [← h1]
    unfold withAssign
    split <;> simp [groupOf]
  · rw [← h2]
    unfold withAssign
    split <;> simp [groupOf]
  · simp [groupOf]

end Verif.Lemmas
