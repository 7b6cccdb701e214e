import Verif.Lemmas.AutoWrap
import Verif.Props.Protect
import Verif.Props.ListFuncs

/-!
C85: `autoWrap` in a line of a razor template.
-/

namespace Verif.Props
open Verif Verif.Text Verif.Value Verif.AutoWrap Verif.Spec Verif.Lemmas Verif.Protect Verif.Strings

/-- The quoted format of the result. -/
def wrapFormat (pr : Char → Bool) (before after : Text) : Text := T "\"" ++ AutoWrap.escape pr before ++ T "%v" ++ AutoWrap.escape pr after ++ T "\""

theorem read_wrapFormat (pr : Char → Bool) (before after : Text) : readLiteral (wrapFormat pr before after) = some (before ++ T "%v" ++ after) := by
  have h0 : readLiteral (wrapFormat pr before after) = readQuoted (AutoWrap.escape pr before ++ T "%v" ++ AutoWrap.escape pr after ++ T "\"") := rfl
  rw [h0]
  rw [escape_eq, escape_eq, List.append_assoc, List.append_assoc, readQuoted_flatMap]
  show Option.map _ (readQuoted ('%' :: 'v' :: (_ ++ T "\""))) = _
  rw [readQuoted_plain (by decide) (by decide) (by decide), readQuoted_plain (by decide) (by decide) (by decide), readQuoted_flatMap]
  have : readQuoted (T "\"") = some [] := rfl
  rw [this]
  simp [T]

theorem render_wrapped (pr : Char → Bool) (g : Groups) (args after : Text) :
    render pr g ('(' :: (args ++ [')'])) after = wrapped g.nl g.reduce (wrapFormat pr g.before after) args := by
  unfold render wrapped wrapFormat
  by_cases h : g.nl = []
  · simp [h, T]
  · simp [h, T]

/-- The result, from what the closing parenthesis is in the protected text. -/
theorem autoWrap_eq (pr : Char → Bool) (before nl reduce s : Text) : autoWrap pr ⟨before, nl, reduce, '(' :: s⟩ =
    match matchClose '(' ')' 0 0 (protectN 0 s).1 with
    | none => (match restore ('(' :: (protectN 0 s).1) (protectN 0 s).2 with
      | none => .panic
      | some _ => .unchanged)
    | some r => (match restore ((protectN 0 s).1.drop (r + 1)) (protectN 0 s).2, restore ('(' :: (protectN 0 s).1.take (r + 1)) (protectN 0 s).2 with
      | some after, some args => .text (render pr ⟨before, nl, reduce, '(' :: s⟩ args after)
      | _, _ => .panic) := by
  have hp : protect ('(' :: s) = ('(' :: (protectN 0 s).1, (protectN 0 s).2) := protectN_cons (by rintro (h | h) <;> cases h) 0 s
  unfold autoWrap
  simp only [hp]
  rw [context_first]
  cases hm : matchClose '(' ')' 0 0 (protectN 0 s).1 with
  | none => rfl
  | some r =>
    obtain ⟨u, v, he, hr⟩ := matchClose_cut hm
    simp only [Nat.zero_add] at hr
    subst hr
    have hl : ('(' :: (protectN 0 s).1.take (u.length + 1)).length = (u.length + 1) + 1 := by
      rw [List.length_cons, List.length_take, he]
      simp only [List.length_append, List.length_cons]
      omega
    simp only [reduceCtorEq, if_false]
    rw [hl, List.drop_succ_cons]
    cases restore ((protectN 0 s).1.drop (u.length + 1)) (protectN 0 s).2 <;> cases restore ('(' :: (protectN 0 s).1.take (u.length + 1)) (protectN 0 s).2 <;> rfl

/-- **C85**: an `autoWrap` becomes a `join` of a `formatList`, whose arguments are those of the `autoWrap` and whose format has what is before and after it on the line. -/
theorem C85_expand (pr : Char → Bool) (before nl reduce args after : Text) (ha : Arguments args) (hm : '♠' ∉ args ++ after) :
    ∃ format, readLiteral format = some (before ++ T "%v" ++ after) ∧
      autoWrap pr ⟨before, nl, reduce, T "(" ++ args ++ T ")" ++ after⟩ = .text (wrapped nl reduce format args) := by
  refine ⟨wrapFormat pr before after, read_wrapFormat pr before after, ?_⟩
  have hctx : T "(" ++ args ++ T ")" ++ after = '(' :: (args ++ ')' :: after) := by simp [T]
  rw [hctx, autoWrap_eq]
  obtain ⟨a', lits, e1, e2, e3⟩ := protect_arguments ha 0
  have q2 : ¬ Quote ')' := by rintro (h | h) <;> cases h
  have hp := e1 (')' :: after)
  rw [protectN_cons q2] at hp
  simp only [Nat.zero_add] at hp
  rw [hp]
  simp only
  rw [e2]
  have hmc : matchClose '(' ')' 0 (0 + a'.length) (')' :: (protectN lits.length after).1) = some a'.length := by simp [matchClose]
  rw [hmc]
  simp only
  have hd : (a' ++ ')' :: (protectN lits.length after).1).drop (a'.length + 1) = (protectN lits.length after).1 := by
    rw [List.drop_append]; simp
  have ht : (a' ++ ')' :: (protectN lits.length after).1).take (a'.length + 1) = a' ++ [')'] := by
    rw [List.take_append, List.take_of_length_le (by omega)]; simp
  rw [hd, ht]
  have hr1 : restore (protectN lits.length after).1 (lits ++ (protectN lits.length after).2) = some after := by
    refine restore_after _ _ _ (fun h => hm (List.mem_append_right _ h)) (fun i l hl => ?_)
    rw [List.getElem?_append_right (by omega), ← hl]
    congr 1; omega
  have hr2 : restore ('(' :: (a' ++ [')'])) (lits ++ (protectN lits.length after).2) = some ('(' :: (args ++ [')'])) := by
    unfold restore
    have := restoreAux_plain (lits ++ (protectN lits.length after).2) ['('] (a' ++ [')']) (by
      intro x hx; rw [List.mem_singleton] at hx; rw [hx]; rintro (h | h) <;> cases h)
    rw [List.singleton_append] at this
    rw [this, e3 _ _ (fun i l hl => by
      rw [Nat.zero_add, List.getElem?_append_left (List.getElem?_eq_some_iff.1 hl).1]; exact hl)]
    have : ∀ arr : List Text, restoreAux arr 0 [')'] = some [')'] := fun _ => rfl
    rw [this]
    rfl
  rw [hr1, hr2]
  simp only
  rw [render_wrapped]

/-- **C85**, nothing is lost: the line is not changed, or what is in the parentheses and what follows are in the result. -/
theorem C85_lossless (pr : Char → Bool) (before nl reduce s : Text) (hm : '♠' ∉ s) :
    autoWrap pr ⟨before, nl, reduce, '(' :: s⟩ = .unchanged ∨
    ∃ args after format, s = args ++ T ")" ++ after ∧ readLiteral format = some (before ++ T "%v" ++ after) ∧
      autoWrap pr ⟨before, nl, reduce, '(' :: s⟩ = .text (wrapped nl reduce format args) := by
  have hall : restoreAux (protectN 0 s).2 0 (protectN 0 s).1 = some s := restore_after _ 0 s hm (fun i l hl => by rw [Nat.zero_add]; exact hl)
  have pl : ∀ c, ¬ Quote c → ∀ (arr : List Text) u, restoreAux arr 0 (c :: u) = (restoreAux arr 0 u).map (c :: ·) := by
    intro c hc arr u
    exact restoreAux_plain arr [c] u (by intro x hx; rw [List.mem_singleton] at hx; rw [hx]; exact hc)
  have q1 : ¬ Quote '(' := by rintro (h | h) <;> cases h
  have q2 : ¬ Quote ')' := by rintro (h | h) <;> cases h
  rw [autoWrap_eq]
  cases hc : matchClose '(' ')' 0 0 (protectN 0 s).1 with
  | none =>
    refine Or.inl ?_
    simp only
    unfold restore
    rw [pl _ q1, hall]
    rfl
  | some r =>
    refine Or.inr ?_
    obtain ⟨u, v, he, hr⟩ := matchClose_cut hc
    simp only [Nat.zero_add] at hr
    subst hr
    rw [he] at hall
    have hd : (protectN 0 s).1.drop (u.length + 1) = v := by rw [he, List.drop_append]; simp
    have ht : (protectN 0 s).1.take (u.length + 1) = u ++ [')'] := by rw [he, List.take_append, List.take_of_length_le (by omega)]; simp
    rw [restoreAux_split _ _ _ _ (Nat.zero_le _), pl _ q2] at hall
    cases hu : restoreAux (protectN 0 s).2 0 u with
    | none => rw [hu] at hall; cases hall
    | some a =>
      cases hv : restoreAux (protectN 0 s).2 0 v with
      | none => rw [hu, hv] at hall; cases hall
      | some b =>
        rw [hu, hv] at hall
        simp only [Option.map_some, Option.bind_some, Option.some.injEq] at hall
        refine ⟨a, b, wrapFormat pr before b, by rw [← hall]; simp [T], read_wrapFormat pr before b, ?_⟩
        simp only
        rw [hd, ht]
        unfold restore
        rw [hv, pl _ q1, restoreAux_split _ _ _ _ (Nat.zero_le _), hu, pl _ q2]
        have : ∀ arr : List Text, restoreAux arr 0 ([] : Text) = some [] := fun _ => rfl
        rw [this]
        simp only [Option.map_some, Option.bind_some]
        rw [render_wrapped]

/-- **C85**, a parenthesis that is never closed: the line is not changed. -/
theorem C85_unclosed (pr : Char → Bool) (before nl reduce s : Text) (hm : '♠' ∉ s) (h : ')' ∉ s) :
    autoWrap pr ⟨before, nl, reduce, '(' :: s⟩ = .unchanged := by
  rcases C85_lossless pr before nl reduce s hm with h1 | ⟨args, after, _, rfl, _⟩
  · exact h1
  · exact absurd (by simp [T]) h

theorem sprintf_plain {u : Text} (h : '%' ∉ u) (arg : Text) (used : Bool) (s : Text) : sprintf arg used (u ++ s) = (sprintf arg used s).map (u ++ ·) := by
  induction u with
  | nil => simp
  | cons c u ih =>
    have hc : c ≠ '%' := fun e => h (by simp [e])
    have h1 : ∀ t, sprintf arg used (c :: t) = (sprintf arg used t).map (c :: ·) := by
      intro t
      rw [sprintf.eq_def]
      split
      · rename_i heq; cases heq
      · rename_i heq; cases heq; exact absurd rfl hc
      · rename_i heq; cases heq; rw [if_neg hc]
    rw [List.cons_append, h1, ih (fun h' => h (List.mem_cons_of_mem _ h'))]
    cases sprintf arg used s <;> simp

/-- **C85**, the elements: without a percent sign on the line, each element is between what is before and what is after. -/
theorem C85_elements_partial (before after : Text) (hb : '%' ∉ before) (ha : '%' ∉ after) :
    (∀ arg, sprintf arg false (before ++ T "%v" ++ after) = some (before ++ arg ++ after)) ∧
    ∀ l : List Value, (∀ k, l ≠ [.list k]) →
      ListFuncs.formatList (fun v => (sprintf (sprint v) false (before ++ T "%v" ++ after)).getD []) [.list l] = l.map fun v => .str (before ++ sprint v ++ after) := by
  have h1 : ∀ arg, sprintf arg false (before ++ T "%v" ++ after) = some (before ++ arg ++ after) := by
    intro arg
    have h0 : sprintf arg true after = some after := by
      have := sprintf_plain ha arg true []
      rw [List.append_nil] at this
      rw [this]
      simp [sprintf]
    have h2 : sprintf arg false ('%' :: 'v' :: after) = some (arg ++ after) := by
      rw [sprintf, if_pos rfl, h0]; rfl
    rw [List.append_assoc, sprintf_plain hb]
    show Option.map _ (sprintf arg false ('%' :: 'v' :: after)) = _
    rw [h2]
    simp
  refine ⟨h1, fun l hl => ?_⟩
  rw [(Verif.Props.C79_formatList_partial _).1 l hl]
  simp only [h1, Option.getD_some]

/-- **C85**, not with a percent sign: it is read as a part of the format. -/
theorem C85_not_percent : sprintf (T "x") false (T "50%% " ++ T "%v" ++ []) = some (T "50% x") ∧ sprintf (T "x") false (T "50%" ++ T "%v" ++ []) = none ∧
    sprintf (T "x") false (T "%v: " ++ T "%v" ++ []) = some (T "x: %!v(MISSING)") := ⟨rfl, rfl, rfl⟩

example : Arguments (T "list(1, 2), \")\"") := by
  have lit : Literal (T "\")\"") := .double [')'] (by
    intro pre post h
    cases pre with
    | nil => cases h
    | cons c pre =>
      simp only [List.cons_append, List.cons.injEq] at h
      have := congrArg List.length h.2
      simp at this) (by
    rintro ⟨pre, n, h, _⟩
    have := congrArg List.getLast? h
    rw [List.replicate_succ', ← List.append_assoc, List.getLast?_concat] at this
    revert this; decide)
  have nq : ∀ c : Char, (c == '`' || c == '"') = false → ¬ Quote c := by
    rintro c h (rfl | rfl) <;> simp at h
  have p : ∀ {c : Char} {t}, (c == '`' || c == '"') = false → c ≠ '(' → c ≠ ')' → Arguments t → Arguments (c :: t) := fun h => .plain (nq _ h)
  refine p rfl (by decide) (by decide) (p rfl (by decide) (by decide) (p rfl (by decide) (by decide) (p rfl (by decide) (by decide) ?_)))
  refine .nested (a := T "1, 2") (t := T ", \")\"") ?_ ?_
  · exact p rfl (by decide) (by decide) (p rfl (by decide) (by decide) (p rfl (by decide) (by decide) (p rfl (by decide) (by decide) .nil)))
  · refine p rfl (by decide) (by decide) (p rfl (by decide) (by decide) ?_)
    exact .literal lit .nil
example : autoWrap (fun _ => true) ⟨T "- ", T "<", [], T "(list(1), \")\"); // \"x\""⟩ =
    .text (T "@<join(\"\\n\", formatList(\"- %v; // \\\"x\\\"\", list(1), \")\"))") := by decide +kernel
example : autoWrap (fun _ => true) ⟨T "- ", [], T "-", T "(a(b)"⟩ = .unchanged := by decide +kernel

example : ∃ format, readLiteral format = some (T "- " ++ T "%v" ++ T ";") ∧
    autoWrap (fun _ => true) ⟨T "- ", T "<", [], T "(" ++ T "xs" ++ T ")" ++ T ";"⟩ = .text (wrapped (T "<") [] format (T "xs")) := by
  have nq : ∀ c : Char, (c == '`' || c == '"') = false → ¬ Quote c := by
    rintro c h (rfl | rfl) <;> simp at h
  exact C85_expand _ _ _ _ _ _ (.plain (nq _ rfl) (by decide) (by decide) (.plain (nq _ rfl) (by decide) (by decide) .nil)) (by decide)
example := C85_lossless (fun _ => true) (T "- ") [] [] (T "a(b);") (by decide)
example : autoWrap (fun _ => true) ⟨T "- ", [], T "-", T "(a(b"⟩ = .unchanged := C85_unclosed _ _ _ _ (T "a(b") (by decide) (by decide)
example : sprintf (T "x") false (T "- " ++ T "%v" ++ T ";") = some (T "- " ++ T "x" ++ T ";") := (C85_elements_partial (T "- ") (T ";") (by decide) (by decide)).1 _


end Verif.Props
