import Verif.Spec.SpreadSpec
import Verif.Lemmas.ListOps
/-!
# C87: calls with a list of arguments, results read as data
-/

namespace Verif.Props
open Verif Spec Ellipsis Text

/-! ## The arguments -/

theorem expand_iff {args l : List GoVal} : expand args = some l ↔ Spread args l := by
  constructor
  · intro h
    unfold expand at h
    rcases List.eq_nil_or_concat args with rfl | ⟨init, x, rfl⟩
    · simp at h
    · simp only [List.concat_eq_append, List.getLast?_append, List.getLast?_singleton, Option.some_or, List.dropLast_concat] at h
      rw [List.concat_eq_append]
      cases x <;> simp only [Option.some.injEq, reduceCtorEq] at h
      · subst h; exact .nothing _
      · subst h; exact .list _ _ _
  · rintro (⟨init, ty, es⟩ | init) <;> simp [expand]

/-- C87. A call is refused exactly when there are no arguments or the last one is neither a list nor nothing. -/
theorem C87_refused (env : Env) (function : Text) (args : List GoVal) :
    ((∃ l, Spread args l) ∨ ellipsis env function args = .error (T "the last argument must be a slice")) ∧
    ((∃ l, Spread args l) ↔ ∃ init x, args = init ++ [x] ∧ (x = .nil ∨ ∃ ty es, x = .slice ty es)) := by
  constructor
  · cases h : expand args with
    | none => exact .inr (by simp [ellipsis, h])
    | some l => exact .inl ⟨l, expand_iff.1 h⟩
  · constructor
    · rintro ⟨l, h⟩
      cases h with
      | list init ty es => exact ⟨init, _, rfl, .inr ⟨ty, es, rfl⟩⟩
      | nothing => exact ⟨_, _, rfl, .inl rfl⟩
    · rintro ⟨init, x, rfl, rfl | ⟨ty, es, rfl⟩⟩
      · exact ⟨_, .nothing _⟩
      · exact ⟨_, .list _ _ _⟩

theorem argName_inj {i j : Nat} (h : argName i = argName j) : i = j :=
  Verif.toDigits10_inj (List.append_cancel_left h)

theorem convert_fold (args : List GoVal) : ∀ (ws : List Text) (ctx : GoMap GoVal),
    (∀ i, ws.length < i → ctx.get? (argName i) = none) →
    (args.foldl convertArg (ws, ctx)).1 = ws ++ (List.range' (ws.length + 1) args.length).map (fun i => '.' :: argName i) ∧
    (∀ i, i < args.length → (args.foldl convertArg (ws, ctx)).2.get? (argName (ws.length + 1 + i)) = args[i]?) ∧
    (∀ k, (∀ i, ws.length < i → k ≠ argName i) → (args.foldl convertArg (ws, ctx)).2.get? k = ctx.get? k) ∧
    (args.foldl convertArg (ws, ctx)).2.length = ctx.length + args.length := by
  induction args with
  | nil => intro ws ctx _; simp
  | cons a args ih =>
    intro ws ctx hf
    have hfree : ctx.get? (argName (ws.length + 1)) = none := hf _ (by omega)
    obtain ⟨i1, i2, i3, i4⟩ := ih (ws ++ ['.' :: argName (ws.length + 1)]) (ctx.set (argName (ws.length + 1)) a) (by
      intro i hi
      rw [List.length_append, List.length_singleton] at hi
      rw [GoMap.get?_set, if_neg (fun h => by have := argName_inj h; omega)]
      exact hf i (by omega))
    simp only [List.length_append, List.length_singleton] at i1 i2 i3
    have hstep : convertArg (ws, ctx) a = (ws ++ ['.' :: argName (ws.length + 1)], ctx.set (argName (ws.length + 1)) a) := rfl
    rw [List.foldl_cons, hstep]
    refine ⟨?_, ?_, ?_, ?_⟩
    · rw [i1, List.length_cons, List.range'_succ, List.map_cons, List.append_assoc, List.singleton_append]
    · intro i hi
      cases i with
      | zero =>
        rw [Nat.add_zero, i3 _ (fun j hj h => by have := argName_inj h; omega), GoMap.get?_set, if_pos rfl]
        rfl
      | succ i =>
        rw [List.length_cons] at hi
        have := i2 i (by omega)
        rw [show ws.length + 1 + (i + 1) = ws.length + 1 + 1 + i by omega, this]
        rfl
    · intro k hk
      rw [i3 k (fun i hi => hk i (by omega)), GoMap.get?_set, if_neg (fun h => hk _ (by omega) h.symm)]
    · have hl : (ctx.set (argName (ws.length + 1)) a).length = ctx.length + 1 := by
        rw [GoMap.length_eq_keys, GoMap.keys_set, GoMap.length_eq_keys]
        have : ¬ argName (ws.length + 1) ∈ ctx.keys := GoMap.get?_eq_none_iff.1 hfree
        simp [this]
      rw [i4, hl, List.length_cons]
      omega

theorem argName_word (i : Nat) : IsWord ('.' :: argName i) := by
  refine ⟨by simp, ?_⟩
  intro c hc
  simp only [argName, List.mem_cons, List.mem_append] at hc
  rcases hc with rfl | hc | hc
  · decide
  · have : ∀ c ∈ T "ARG", isSpace c = false := by decide
    exact this c hc
  · have hd := Verif.toDigits10_isDigit hc
    have hs : ∀ c : Char, c.isDigit = true → isSpace c = false := by
      intro c h
      simp only [Char.isDigit, Bool.and_eq_true, decide_eq_true_eq, ge_iff_le, UInt32.le_iff_toNat_le] at h
      have h1 : 48 ≤ c.toNat := h.1
      have h2 : c.toNat ≤ 57 := h.2
      simp only [isSpace, Bool.or_eq_false_iff, Bool.and_eq_false_iff, decide_eq_false_iff_not, beq_eq_false_iff_ne]
      omega
    exact hs c hd

/-- C87. The code that is executed is the call of the function with the arguments spread, in order; each one has a variable of its own. -/
theorem C87_call (env : Env) (function : Text) (l : List GoVal) (hl : IsWord env.left) (hr : IsWord env.right) (hf : IsWord function) :
    Call env.left env.right (callCode env function (convertArgs l).1) (convertArgs l).2 function l := by
  obtain ⟨i1, i2, _, i4⟩ := convert_fold l [] [] (fun _ _ => rfl)
  rw [List.nil_append] at i1
  refine ⟨⟨(List.range' 1 l.length).map argName, ?_, ?_⟩, ?_⟩
  · have hw : ∀ w ∈ (convertArgs l).1, IsWord w := by
      intro w hw
      rw [convertArgs, i1] at hw
      obtain ⟨i, _, rfl⟩ := List.mem_map.1 hw
      exact argName_word i
    unfold callCode
    rw [fields_append _ _ _ (by decide), fields_append _ _ _ (by decide), fields_append _ _ _ (by decide), fields_word hl, fields_word hf,
      fields_word hr, fields_join_words ' ' (by decide) _ hw, convertArgs, i1]
    simp
  · rw [List.map_map]
    apply List.ext_getElem?
    intro i
    simp only [List.getElem?_map]
    by_cases hi : i < l.length
    · have := i2 i hi
      simp only [List.length_nil, Nat.zero_add] at this
      rw [List.getElem?_range' (by simpa using hi)]
      simp only [Option.map_some, Function.comp, Nat.one_mul]
      rw [convertArgs, this]
      rw [List.getElem?_eq_getElem hi]
      rfl
    · rw [List.getElem?_eq_none (by simpa using hi), List.getElem?_eq_none (by omega)]
      rfl
  · rw [convertArgs, i4]
    simp

/-! ## The result -/

theorem convert_cases (env : Env) (text : Text) : (∃ v, ReadAs env text v) ∨ NotData env text := by
  by_cases h : ∃ v, ReadAs env text v
  · exact .inl h
  · exact .inr (fun v hv => h ⟨v, hv⟩)

theorem dataConverter_read {env : Env} {r c : Text} {v : GoVal} (hr : env.render r none = .ok c) (h : ReadAs env c v) : dataConverter env r = .ok v := by
  simp only [ReadAs] at h
  simp [dataConverter, hr, h]

theorem dataConverter_not {env : Env} {r c : Text} (hr : env.render r none = .ok c) (h : NotData env c) : ∃ e, dataConverter env r = .error e := by
  unfold dataConverter
  simp only [hr]
  rcases hc : Convert.convert true env.converters c .nil with ⟨_ | e, v⟩
  · exact absurd hc (h v)
  · exact ⟨_, rfl⟩

theorem tryConvert_error {env : Env} {r e : Text} (h : dataConverter env r = .error e) : tryConvert env r = .value (.str false r) := by
  simp [tryConvert, h]

theorem tryConvert_text {env : Env} {r : Text} {v : GoVal} (h : dataConverter env r = .ok v) (hv : IsText v) :
    tryConvert env r = .value (.str false r) := by
  obtain ⟨n, s, rfl⟩ := hv
  simp [tryConvert, h]

theorem tryConvert_value {env : Env} {r : Text} {v : GoVal} (h : dataConverter env r = .ok v) (hv : ¬ IsText v) (hn : v ≠ .nil) :
    tryConvert env r = .value v := by
  cases v <;> first | exact absurd rfl hn | (exact absurd ⟨_, _, rfl⟩ hv) | simp [tryConvert, h]

/-- C87. What the call gives: the text made by the function is executed as a template; its result is read as data; if this gives something else than a text, it
is the value, otherwise the value is the text made by the function. Data that is nothing is a panic. -/
theorem C87_result (env : Env) (function : Text) (args l : List GoVal) (r c : Text) (hs : Spread args l)
    (hr : env.render (callCode env function (convertArgs l).1) (some (convertArgs l).2) = .ok r) (hc : env.render r none = .ok c) :
    (NotData env c → ellipsis env function args = .value (.str false r)) ∧
    (∀ v, ReadAs env c v → IsText v → ellipsis env function args = .value (.str false r)) ∧
    (∀ v, ReadAs env c v → ¬ IsText v → v ≠ .nil → ellipsis env function args = .value v) ∧
    (ReadAs env c .nil → ellipsis env function args = .panic) := by
  have he : ellipsis env function args = tryConvert env r := by
    simp [ellipsis, expand_iff.2 hs, hr]
  rw [he]
  refine ⟨fun h => ?_, fun v h ht => ?_, fun v h ht hn => ?_, fun h => ?_⟩
  · obtain ⟨e, h⟩ := dataConverter_not hc h
    exact tryConvert_error h
  · exact tryConvert_text (dataConverter_read hc h) ht
  · exact tryConvert_value (dataConverter_read hc h) ht hn
  · simp [tryConvert, dataConverter_read hc h]

/-- C87. A text that cannot be executed as a template is the value. -/
theorem C87_plain (env : Env) (function : Text) (args l : List GoVal) (r e : Text) (hs : Spread args l)
    (hr : env.render (callCode env function (convertArgs l).1) (some (convertArgs l).2) = .ok r) (hc : env.render r none = .error e) :
    ellipsis env function args = .value (.str false r) := by
  have he : ellipsis env function args = tryConvert env r := by
    simp [ellipsis, expand_iff.2 hs, hr]
  rw [he]
  exact tryConvert_error (e := e) (by simp [dataConverter, hc])

/-! ## Errors -/

theorem afterPosition_none {e : Text} (h : ¬ T ">: " <:+: e) : afterPosition e = none := by
  induction e with
  | nil => rfl
  | cons c t ih =>
    rw [afterPosition]
    cases hd : dropPrefix? (T ">: ") (c :: t) with
    | some r => exact absurd ⟨[], r, by rw [dropPrefix?_eq_some.1 hd]; rfl⟩ h
    | none => exact ih (fun ⟨a, b, hab⟩ => h ⟨c :: a, b, by rw [← hab]; rfl⟩)

theorem afterPosition_first (a b : Text) (h : ∀ a' b', a ++ T ">: " ++ b = a' ++ T ">: " ++ b' → a.length ≤ a'.length) :
    afterPosition (a ++ T ">: " ++ b) = some b := by
  induction a with
  | nil => rfl
  | cons c a ih =>
    rw [List.cons_append, List.cons_append, afterPosition]
    cases hd : dropPrefix? (T ">: ") (c :: (a ++ T ">: " ++ b)) with
    | some r =>
      have := h [] r (by rw [List.cons_append, List.cons_append, dropPrefix?_eq_some.1 hd]; rfl)
      simp at this
    | none =>
      refine ih (fun a' b' hab => ?_)
      have := h (c :: a') b' (by rw [List.cons_append, List.cons_append, hab]; rfl)
      simpa using this

/-- C87. The text of an error is what follows the first position of the engine of templates, or the whole text. -/
theorem C87_error (env : Env) (function : Text) (args l : List GoVal) (e : Text) (v : GoVal) (hs : Spread args l)
    (hr : env.render (callCode env function (convertArgs l).1) (some (convertArgs l).2) = .error e) (hv : tryConvert env [] = .value v) :
    (¬ T ">: " <:+: e → ellipsis env function args = .error e) ∧
    (∀ a b, e = a ++ T ">: " ++ b → (∀ a' b', e = a' ++ T ">: " ++ b' → a.length ≤ a'.length) → ellipsis env function args = .error b) := by
  have he : ellipsis env function args = .error (errorText e) := by
    simp [ellipsis, expand_iff.2 hs, hr, hv, withError]
  rw [he]
  constructor
  · intro h
    rw [errorText, afterPosition_none h]
    rfl
  · rintro a b rfl h
    rw [errorText, afterPosition_first a b h]
    rfl

/-! ## `exec` and `data` -/

/-- C87. The output of a command is read as data as it is (without being executed as a template), and is the text if it is no data; an error is returned. -/
theorem C87_exec (env : Env) (s e : Text) :
    exec env (.error e) = .error e ∧ exec env .nothing = .value .nil ∧
    (∀ v, ReadAs env s v → exec env (.text s) = .value v) ∧ (NotData env s → exec env (.text s) = .value (.str false s)) := by
  refine ⟨rfl, rfl, fun v h => ?_, fun h => ?_⟩
  · simp only [ReadAs] at h
    simp [exec, h]
  · rcases hc : Convert.convert true env.converters s .nil with ⟨_ | e, v⟩
    · exact absurd hc (h v)
    · simp [exec, hc]

/-- C87. `data` reads the result of the execution of its text; text that cannot be executed or is no data is an error. -/
theorem C87_data (env : Env) (s : Text) :
    (∀ c v, env.render s none = .ok c → ReadAs env c v → data env s = .value v) ∧
    (∀ c, env.render s none = .ok c → NotData env c → ∃ e, data env s = .error e) ∧
    (∀ e, env.render s none = .error e → data env s = .error e) := by
  refine ⟨fun c v h hv => ?_, fun c h hv => ?_, fun e h => ?_⟩
  · simp [data, dataConverter_read h hv]
  · obtain ⟨e, h⟩ := dataConverter_not h hv
    exact ⟨e, by simp [data, h]⟩
  · simp [data, dataConverter, h]

/-! ## Where the code differs from what is wanted -/

/-- A format that knows the number 1 and nothing. -/
def smallFormat : Convert.Converter := fun d out =>
  if d = T "1" then (none, .int .int 1) else if d = T "null" then (none, .nil) else (some (T "bad"), out)

/-- An engine where any call gives the same text; other texts are not changed, but `f` is the name of a file. -/
def callEnv (result : Text) : Env where
  left := T "{{"
  right := T "}}"
  render code context := if context.isSome then .ok result else if code = T "f" then .ok (T "1") else .ok code
  converters := [(T "json", smallFormat)]

/-- C87. The text "1" becomes a number. -/
theorem C87_not_type : (callEnv (T "1")).render (callCode (callEnv (T "1")) (T "print") [T ".ARG1"]) (some [(T "ARG1", .str false (T "1"))]) = .ok (T "1") ∧
    ellipsis (callEnv (T "1")) (T "print") [.slice .any [.str false (T "1")]] = .value (.int .int 1) := by
  refine ⟨rfl, (C87_result _ _ _ _ (T "1") (T "1") (.list [] _ _) rfl rfl).2.2.1 _ ?_ ?_ ?_⟩
  · rw [ReadAs, Convert.convert]; rfl
  · rintro ⟨_, _, h⟩; cases h
  · intro h; cases h

/-- C87. The text "null" is a panic. -/
theorem C87_not_null : ellipsis (callEnv (T "null")) (T "print") [.slice .any [.str false (T "null")]] = .panic := by
  refine (C87_result _ _ _ _ (T "null") (T "null") (.list [] _ _) rfl rfl).2.2.2 ?_
  rw [ReadAs, Convert.convert]; rfl

/-- C87. A text that is the name of a file is replaced by what the file contains. -/
theorem C87_not_text : ellipsis (callEnv (T "f")) (T "print") [.slice .any [.str false (T "f")]] = .value (.int .int 1) := by
  refine (C87_result _ _ _ _ (T "f") (T "1") (.list [] _ _) rfl rfl).2.2.1 _ ?_ ?_ ?_
  · rw [ReadAs, Convert.convert]; rfl
  · rintro ⟨_, _, h⟩; cases h
  · intro h; cases h

/-! ## Cases that meet the hypotheses -/

example : Spread [.bool true, .slice .any [.nil, .int .int 2]] [.bool true, .nil, .int .int 2] := .list [.bool true] _ _
example : Spread [.bool true, .nil] [.bool true] := .nothing [.bool true]
example : IsWord (callEnv []).left ∧ IsWord (callEnv []).right ∧ IsWord (T "print") := by
  refine ⟨⟨by decide, by decide⟩, ⟨by decide, by decide⟩, ⟨by decide, by decide⟩⟩
example : callCode (callEnv []) (T "print") (convertArgs [.bool true, .nil]).1 = T "{{ print .ARG1 .ARG2 }}" := by decide +kernel
example : NotData (callEnv []) (T "x") := by
  intro v h
  have : Convert.convert true (callEnv []).converters (T "x") .nil = (some [(T "json", T "bad")], .nil) := by rw [Convert.convert]; rfl
  rw [ReadAs, this] at h
  cases h
example : tryConvert (callEnv (T "x")) [] = .value (.str false []) := by
  refine tryConvert_error (e := T "conversion") ?_
  have : Convert.convert true (callEnv (T "x")).converters [] .nil = (some [(T "json", T "bad")], .nil) := by rw [Convert.convert]; rfl
  simp only [dataConverter]
  show (match Convert.convert true (callEnv (T "x")).converters [] .nil with | (none, v) => Except.ok v | (some _, _) => .error (T "conversion")) = _
  rw [this]
example : ∀ a' b', T "t:1:2: <x>: no: <y>: z" = a' ++ T ">: " ++ b' → (T "t:1:2: <x").length ≤ a'.length := by
  intro a' b' h
  refine Decidable.byContradiction fun hlt => ?_
  have hlt : a'.length < 9 := by simpa [T] using hlt
  have h9 : ((T "t:1:2: <x>: no: <y>: z").drop a'.length).head? = some '>' := by
    rw [h, List.append_assoc, List.drop_left]; rfl
  have : ∀ n, n < 9 → ((T "t:1:2: <x>: no: <y>: z").drop n).head? ≠ some '>' := by decide +kernel
  exact this _ hlt h9

example := C87_call (callEnv []) (T "print") [.bool true, .nil] ⟨by decide, by decide⟩ ⟨by decide, by decide⟩ ⟨by decide, by decide⟩
example : ellipsis (callEnv (T "f")) (T "print") [.slice .any [.bool true]] = .value (.int .int 1) := by
  refine (C87_result (callEnv (T "f")) (T "print") _ [.bool true] (T "f") (T "1") (.list [] .any [.bool true]) rfl rfl).2.2.1 _ ?_ ?_ (by simp)
  · show Convert.convert true [(T "json", smallFormat)] (T "1") .nil = _
    rw [Convert.convert]; rfl
  · rintro ⟨n, s, h⟩; cases h


end Verif.Props
