import Verif.Model.Batch
import Verif.Lemmas.Files
import Verif.Spec.BatchSpec
/-!
# C47 (several files), C48 (delimiters), C49 (constants)
-/

namespace Verif.Props
open Text Files Batch Spec

/-- The name of the written file, if any. -/
def writtenFile : Outcome → Option Text
  | .ok r => if r = [] then none else some r
  | _ => none

/-- The error of a file, if any. -/
def fileError : Outcome → Option Text
  | .failed e => some e
  | _ => none

/-- The processing of one file when the printing option has its initial value. -/
def fileStep {σ : Type} (s : Setup σ) (option : Bool) (w : FS × σ) (t : Text) : Outcome × (FS × σ) := ((one s option w t).1, (one s option w t).2.2)

theorem loop_history {σ : Type} (s : Setup σ) (initial : Bool) (ts : List Text) (option : Bool) (w : FS × σ) (fl er fl' er' : List Text) (o : Bool) (w' : FS × σ)
    (h : loop s initial option w fl er ts = (some (fl', er'), o, w')) :
    ∃ os, History (fileStep s initial) w ts os w' ∧ (∀ x ∈ os, x ≠ .panic) ∧ fl' = fl ++ os.filterMap writtenFile ∧ er' = er ++ os.filterMap fileError := by
  induction ts generalizing option w fl er with
  | nil =>
    simp only [loop, Prod.mk.injEq, Option.some.injEq] at h
    obtain ⟨⟨rfl, rfl⟩, _, rfl⟩ := h
    exact ⟨[], .done _, by simp, by simp, by simp⟩
  | cons t ts ih =>
    rcases hone : one s initial w t with ⟨out, o1, w1⟩
    simp only [loop, hone] at h
    have hstep : fileStep s initial w t = (out, w1) := by simp [fileStep, hone]
    cases out with
    | ok r =>
      obtain ⟨os, h1, h2, h3, h4⟩ := ih _ _ _ _ h
      refine ⟨.ok r :: os, ?_, ?_, ?_, ?_⟩
      · have := History.step (step := fileStep s initial) (w := w) (t := t) (ts := ts) (os := os) (w' := w') (by rw [hstep]; exact h1)
        rwa [hstep] at this
      · intro x hx
        rcases List.mem_cons.1 hx with rfl | hx
        · simp
        · exact h2 x hx
      · rw [h3]
        by_cases hr : r = [] <;> simp [List.filterMap_cons, writtenFile, hr]
      · rw [h4]; simp [List.filterMap_cons, fileError]
    | failed e =>
      obtain ⟨os, h1, h2, h3, h4⟩ := ih _ _ _ _ h
      refine ⟨.failed e :: os, ?_, ?_, ?_, ?_⟩
      · have := History.step (step := fileStep s initial) (w := w) (t := t) (ts := ts) (os := os) (w' := w') (by rw [hstep]; exact h1)
        rwa [hstep] at this
      · intro x hx
        rcases List.mem_cons.1 hx with rfl | hx
        · simp
        · exact h2 x hx
      · rw [h3]; simp [List.filterMap_cons, writtenFile]
      · rw [h4]; simp [List.filterMap_cons, fileError]
    | panic => simp at h

/-- When the batch ends, every file was processed once, in order and with the initial printing option, even if others failed; the names
returned are those of the written files and the errors those of the failed ones, in order. What is missing: a panic aborts the batch
(`C47_not_panic`). -/
theorem C47_complete_partial {σ : Type} (s : Setup σ) (option o : Bool) (w w' : FS × σ) (ts files errors : List Text)
    (h : processAll s option w ts = (some (files, errors), o, w')) :
    ∃ os, History (fileStep s option) w ts os w' ∧ files = os.filterMap writtenFile ∧ errors = os.filterMap fileError := by
  obtain ⟨os, h1, _, h3, h4⟩ := loop_history s option ts option w [] [] files errors o w' h
  exact ⟨os, h1, by simpa using h3, by simpa using h4⟩

theorem history_all {ω τ ο : Type} {step : ω → τ → ο × ω} {w w' : ω} {ts : List τ} {os : List ο} (h : History step w ts os w') (f : τ → ο)
    (hf : ∀ w t, t ∈ ts → (step w t).1 = f t) : os = ts.map f := by
  induction h with
  | done => rfl
  | step _ ih =>
    rw [List.map_cons, hf _ _ (by simp), ih (fun w t ht => hf w t (by simp [ht]))]

/-- When the outcome of each file does not depend on what the others leave, a batch gives what its files give alone. -/
theorem C47_independent_partial {σ : Type} (s : Setup σ) (option : Bool) (w : FS × σ) (ts : List Text) (f : Text → Outcome)
    (hf : ∀ w t, t ∈ ts → (one s option w t).1 = f t) (hp : ∀ t ∈ ts, f t ≠ .panic) :
    (processAll s option w ts).1 = some ((ts.map f).filterMap writtenFile, (ts.map f).filterMap fileError) := by
  have key : ∀ (ts : List Text) (o : Bool) (w : FS × σ) (fl er : List Text), (∀ w t, t ∈ ts → (one s option w t).1 = f t) → (∀ t ∈ ts, f t ≠ .panic) →
      (loop s option o w fl er ts).1 = some (fl ++ (ts.map f).filterMap writtenFile, er ++ (ts.map f).filterMap fileError) := by
    intro ts
    induction ts with
    | nil => intro o w fl er _ _; simp [loop]
    | cons t ts ih =>
      intro o w fl er hf hp
      have h1 := hf w t (by simp)
      have h2 := hp t (by simp)
      rcases hone : one s option w t with ⟨out, o1, w1⟩
      rw [hone] at h1
      simp only at h1
      have ih' := fun o w fl er => ih o w fl er (fun w t ht => hf w t (by simp [ht])) (fun t ht => hp t (by simp [ht]))
      simp only [loop, hone]
      cases out with
      | ok r =>
        rw [ih']
        by_cases hr : r = [] <;> simp [← h1, List.filterMap_cons, writtenFile, fileError, hr]
      | failed e => rw [ih']; simp [← h1, List.filterMap_cons, writtenFile, fileError]
      | panic => exact absurd h1.symm h2
  have := key ts option w [] [] hf hp
  simpa [processAll] using this

/-- An environment for the examples: the name of the file decides what happens. -/
def namedSetup : Setup Unit where
  cwd := T "/w"
  sourceFolder := T "/w"
  targetFolder := T "/w"
  overwrite := false
  render := fun c _ t =>
    if t = T "/w/bad.gt" then (.failed (T "bad"), c)
    else if t = T "/w/script.gt" then (.file (T "s") true 0 true, c)
    else if t = T "/w/main.tf.gt" then (.file (T "s") true 0 true, c)
    else (.file (T "x") true 0 false, c)
  faulty := fun _ => none

example : (processAll namedSetup false (fun _ => none, ()) [T "/w/a.gt", T "/w/bad.gt", T "/w/script.gt", T "/w/b.gt"]).1 =
    some ([T "/w/a.generated", T "/w/b.generated"], [T "bad"]) := by decide +kernel

example : ∀ w t, t ∈ [T "/w/a.gt", T "/w/bad.gt"] → (one namedSetup false w t).1 = if t = T "/w/bad.gt" then .failed (T "bad") else .ok (T "/w/a.generated") := by
  intro w t ht
  simp only [List.mem_cons, List.not_mem_nil, or_false] at ht
  rcases ht with rfl | rfl
  · have hp : plan ⟨T "/w/a.gt", namedSetup.sourceFolder, namedSetup.targetFolder, namedSetup.overwrite, false || false, T "x", true, 0⟩ =
        some (T "/w/a.generated", [.create (T "/w/a.generated") 0, .fill (T "/w/a.generated") (T "x")]) := by decide +kernel
    have hr : namedSetup.render w.2 w.1 (T "/w/a.gt") = (.file (T "x") true 0 false, w.2) := by
      simp only [namedSetup]
      rw [if_neg (by decide), if_neg (by decide), if_neg (by decide)]
    have hf : namedSetup.faulty (T "/w/a.gt") = none := rfl
    rw [if_neg (by decide)]
    simp only [one, hr, hp, hf]
  · have hr : namedSetup.render w.2 w.1 (T "/w/bad.gt") = (.failed (T "bad"), w.2) := by
      simp only [namedSetup, if_true]
    rw [if_pos rfl]
    simp only [one, hr]

/-- The printing option stays on after a batch whose last file is a script: the same file gives another outcome in the next batch. -/
theorem C47_not_restored : ∃ (s : Setup Unit) (w : FS × Unit) (t u : Text),
    (processAll s false w [u]).1 = some ([T "/w/a.generated"], []) ∧
    (processAll s (processAll s false w [t]).2.1 (processAll s false w [t]).2.2 [u]).1 = some ([], []) :=
  ⟨namedSetup, (fun _ => none, ()), T "/w/script.gt", T "/w/a.gt", by decide +kernel, by decide +kernel⟩

/-- A panic for one file aborts the batch: the next files are not processed and the files already written are not returned. -/
theorem C47_not_panic : ∃ (s : Setup Unit) (w : FS × Unit) (t u v : Text), (processAll s false w [t, u, v]).1 = none ∧
    (processAll s false w [t, u, v]).2.2.1 (T "/w/a.generated") = some ⟨T "x", 0⟩ ∧
    (processAll s false w [t, u, v]).2.2.1 (T "/w/b.generated") = none ∧
    (processAll s false w [t, v]).1 = some ([T "/w/a.generated", T "/w/b.generated"], []) :=
  ⟨namedSetup, (fun _ => none, ()), T "/w/a.gt", T "/w/main.tf.gt", T "/w/b.gt", by decide +kernel, by decide +kernel, by decide +kernel, by decide +kernel⟩

/-- What the handling of a file may lead to. When its rendering fails, nothing else happens and the error is reported. Code is not a file: no
file is changed and no name is reported. Otherwise the operations planned for the result are done in order; if the system refuses one of
them, those before it are done and no one after it. -/
theorem C47_one {σ : Type} (s : Setup σ) (print : Bool) (w : FS × σ) (t : Text) :
    (∃ e c, s.render w.2 w.1 t = (.failed e, c) ∧ one s print w t = (.failed e, print, (w.1, c))) ∨
    (∃ x b c, s.render w.2 w.1 t = (.code x b, c) ∧ (one s print w t).1 = .ok [] ∧ (one s print w t).2.2 = (w.1, c)) ∨
    ∃ x changed mode b c, s.render w.2 w.1 t = (.file x changed mode b, c) ∧ (one s print w t).2.2.2 = c ∧
      ((plan ⟨t, s.sourceFolder, s.targetFolder, s.overwrite, print || b, x, changed, mode⟩ = none ∧ (one s print w t).1 = .panic ∧ (one s print w t).2.2.1 = w.1) ∨
       ∃ r ops, plan ⟨t, s.sourceFolder, s.targetFolder, s.overwrite, print || b, x, changed, mode⟩ = some (r, ops) ∧
        ((s.faulty t = none ∧ (one s print w t).1 = .ok r ∧ (one s print w t).2.2.1 = run s.cwd w.1 ops) ∨
         ∃ k, s.faulty t = some k ∧ (one s print w t).1 = fault r ops[k]? ∧ (one s print w t).2.2.1 = run s.cwd w.1 (ops.take k))) := by
  rcases hr : s.render w.2 w.1 t with ⟨o, c⟩
  cases o with
  | failed e => exact .inl ⟨e, c, rfl, by simp only [one, hr]⟩
  | code x b => exact .inr (.inl ⟨x, b, c, rfl, by simp only [one, hr], by simp only [one, hr]⟩)
  | file x changed mode b =>
    refine .inr (.inr ⟨x, changed, mode, b, c, rfl, ?_⟩)
    cases hp : plan ⟨t, s.sourceFolder, s.targetFolder, s.overwrite, print || b, x, changed, mode⟩ with
    | none => exact ⟨by simp only [one, hr, hp], .inl ⟨rfl, by simp only [one, hr, hp], by simp only [one, hr, hp]⟩⟩
    | some z =>
      obtain ⟨r, ops⟩ := z
      cases hf : s.faulty t with
      | none =>
        exact ⟨by simp only [one, hr, hp, hf], .inr ⟨r, ops, rfl, .inl ⟨rfl, by simp only [one, hr, hp, hf], by simp only [one, hr, hp, hf]⟩⟩⟩
      | some k =>
        exact ⟨by simp only [one, hr, hp, hf], .inr ⟨r, ops, rfl, .inr ⟨k, rfl, by simp only [one, hr, hp, hf], by simp only [one, hr, hp, hf]⟩⟩⟩

/-- The name of a file is returned only if its content was completely written: an operation that fails before that is never silent. -/
theorem C47_reported {σ : Type} (s : Setup σ) (print : Bool) (w : FS × σ) (t r : Text) (h : (one s print w t).1 = .ok r) (hr : r ≠ []) :
    ∃ x changed mode b c ops k, s.render w.2 w.1 t = (.file x changed mode b, c) ∧
      plan ⟨t, s.sourceFolder, s.targetFolder, s.overwrite, print || b, x, changed, mode⟩ = some (r, ops) ∧
      (one s print w t).2.2.1 = run s.cwd w.1 (ops.take k) ∧ Op.fill r x ∈ ops.take k := by
  rcases C47_one s print w t with ⟨e, c, _, h2⟩ | ⟨x, b, c, _, h2, _⟩ | ⟨x, changed, mode, b, c, h1, _, h2⟩
  · rw [h2] at h; simp at h
  · rw [h2] at h; injection h with h; exact absurd h.symm hr
  · rcases h2 with ⟨_, h2, _⟩ | ⟨r', ops, hp, ⟨_, h2, h3⟩ | ⟨k, _, h2, h3⟩⟩
    · rw [h2] at h; simp at h
    · rw [h2] at h; injection h with h; subst h
      refine ⟨x, changed, mode, b, c, ops, ops.length, h1, hp, by rw [h3, List.take_length], ?_⟩
      rw [List.take_length]
      rcases Lemmas.plan_cases hp with ⟨h0, _⟩ | ⟨_, _, _, rfl⟩
      · exact absurd h0 hr
      · simp [writing]
    · have hrr : r' = r := by
        rw [h2] at h
        cases ho : ops[k]? with
        | none => rw [ho] at h; simpa [fault] using h
        | some op => rw [ho] at h; cases op <;> simpa [fault] using h
      subst hrr
      refine ⟨x, changed, mode, b, c, ops, k, h1, hp, h3, ?_⟩
      rcases Lemmas.plan_cases hp with ⟨h0, _⟩ | ⟨_, _, _, rfl⟩
      · exact absurd h0 hr
      · rw [h2] at h
        revert h
        unfold writing
        generalize finalMode _ = fm
        simp only []
        split
        · split <;> rcases k with _ | _ | _ | _ | k <;> simp [fault]
        · split
          · split <;> rcases k with _ | _ | _ | _ | k <;> simp [fault]
          · split <;> rcases k with _ | _ | _ | _ | k <;> simp [fault]

example : (one { namedSetup with faulty := fun _ => some 1 } false (fun _ => none, ()) (T "/w/a.gt")).1 = .failed (T "write error") := by decide +kernel

/-! ## C48 -/

theorem setDelims_spec (ps : List Text) (i : Nat) (ds : List Text) (hi : i ≤ ds.length) :
    setDelims ds i ps = if i + ps.length ≤ ds.length then some (ds.mapIdx (fun j d => if j < i then d else delimiterOr d ps[j - i]?)) else none := by
  induction ps generalizing i ds with
  | nil =>
    rw [if_pos (by simpa using hi)]
    simp only [setDelims, Option.some.injEq]
    apply List.ext_getElem
    · simp
    · intro j h1 h2
      simp [delimiterOr]
  | cons p ps ih =>
    simp only [setDelims]
    by_cases h : i = ds.length
    · rw [if_pos h, if_neg (by simp; omega)]
    · rw [if_neg h]
      have hl : (if p ≠ [] then ds.set i p else ds).length = ds.length := by split <;> simp
      rw [ih _ _ (by rw [hl]; omega), hl]
      have hc : (i + 1 + ps.length ≤ ds.length) = (i + (p :: ps).length ≤ ds.length) := by simp; omega
      simp only [hc]
      split
      · congr 1
        apply List.ext_getElem
        · rw [List.length_mapIdx, List.length_mapIdx, hl]
        · intro j h1 h2
          simp only [List.getElem_mapIdx]
          by_cases hj : j < i
          · rw [if_pos (by omega), if_pos hj]
            split
            · rw [List.getElem_set_ne (by omega)]
            · rfl
          · by_cases hji : j = i
            · subst hji
              rw [if_pos (by omega), if_neg hj]
              simp only [Nat.sub_self, List.getElem?_cons_zero, delimiterOr]
              by_cases hp : p = [] <;> simp [hp]
            · rw [if_neg (by omega), if_neg hj]
              have e : j - i = (j - (i + 1)) + 1 := by omega
              rw [e, List.getElem?_cons_succ]
              congr 1
              split
              · rw [List.getElem_set_ne (by omega)]
              · rfl
      · rfl

/-- Up to three parts are accepted; each one replaces a default delimiter unless it is empty. -/
theorem C48_parts (spec : Text) (h : (splitC ',' spec).length ≤ 3) :
    delimiters spec = some [delimiterOr (T "{{") (splitC ',' spec)[0]?, delimiterOr (T "}}") (splitC ',' spec)[1]?, delimiterOr (T "@") (splitC ',' spec)[2]?] := by
  unfold delimiters
  split
  · rw [setDelims_spec _ _ _ (by simp), if_pos (by simpa using h)]
    rfl
  · rename_i hs
    simp only [ne_eq, Decidable.not_not] at hs
    subst hs
    rfl

/-- More than three parts are refused. -/
theorem C48_refused (spec : Text) (h : 3 < (splitC ',' spec).length) : delimiters spec = none := by
  unfold delimiters
  have hs : spec ≠ [] := by rintro rfl; revert h; decide
  rw [if_pos hs, setDelims_spec _ _ _ (by simp), if_neg (by simp; omega)]

example : delimiters (T "[[,]]") = some [T "[[", T "]]", T "@"] ∧ delimiters (T ",,$") = some [T "{{", T "}}", T "$"] ∧ delimiters (T "a,b,c,") = none := by decide

/-! ## C49 -/

theorem setConstant_cases {α : Type} [DecidableEq α] (stop : Bool) (value : α) (context : GoMap α) (n : Text) (names : List Text) :
    (context.get? n = none ∧ stop = true ∧ setConstant stop value context (n :: names) = (context.set n value, [n])) ∨
    (context.get? n = none ∧ stop = false ∧ setConstant stop value context (n :: names) =
      ((setConstant stop value (context.set n value) names).1, n :: (setConstant stop value (context.set n value) names).2)) ∨
    (context.get? n = some value ∧ setConstant stop value context (n :: names) = (context, [])) ∨
    (∃ v, context.get? n = some v ∧ value ≠ v ∧ setConstant stop value context (n :: names) = setConstant stop value context names) := by
  simp only [setConstant]
  split
  · rename_i hn
    cases stop
    · exact .inr (.inl ⟨hn, rfl, rfl⟩)
    · exact .inl ⟨hn, rfl, rfl⟩
  · rename_i v hn
    by_cases hv : value = v
    · subst hv; exact .inr (.inr (.inl ⟨hn, if_pos rfl⟩))
    · exact .inr (.inr (.inr ⟨v, hn, hv, if_neg hv⟩))

/-- The constants never change what the context already defines. -/
theorem C49_kept {α : Type} [DecidableEq α] (stop : Bool) (value : α) (context : GoMap α) (names : List Text) :
    Extends context (setConstant stop value context names).1 := by
  induction names generalizing context with
  | nil => intro k v h; exact h
  | cons n names ih =>
    intro k v h
    simp only [setConstant]
    split
    · rename_i hn
      have hk : (context.set n value).get? k = some v := by
        rw [GoMap.get?_set]
        by_cases hkn : n = k
        · subst hkn; rw [hn] at h; simp at h
        · simp [hkn, h]
      split
      · exact hk
      · exact ih _ _ _ hk
    · split
      · exact h
      · exact ih _ _ _ h

/-- What is defined is the constant, under one of its names; the names that are added were not defined. -/
theorem C49_added {α : Type} [DecidableEq α] (stop : Bool) (value : α) (context : GoMap α) (names : List Text) (k : Text) :
    (setConstant stop value context names).1.get? k =
      if k ∈ (setConstant stop value context names).2 then some value else context.get? k := by
  induction names generalizing context with
  | nil => simp [setConstant]
  | cons n names ih =>
    have hsym : (n = k) = (k = n) := propext eq_comm
    rcases setConstant_cases stop value context n names with ⟨hn, _, e⟩ | ⟨hn, _, e⟩ | ⟨hn, e⟩ | ⟨v, hn, _, e⟩
    · simp only [e, List.mem_singleton, GoMap.get?_set, hsym]
    · simp only [e, ih, List.mem_cons, GoMap.get?_set, hsym]
      by_cases h1 : k ∈ (setConstant stop value (context.set n value) names).2 <;> by_cases h2 : k = n <;> simp [h1, h2]
    · simp [e]
    · rw [e]; exact ih _

theorem C49_new {α : Type} [DecidableEq α] (stop : Bool) (value : α) (context : GoMap α) (names : List Text) :
    ∀ k ∈ (setConstant stop value context names).2, k ∈ names ∧ context.get? k = none := by
  induction names generalizing context with
  | nil => simp [setConstant]
  | cons n names ih =>
    intro k hk
    rcases setConstant_cases stop value context n names with ⟨hn, _, e⟩ | ⟨hn, _, e⟩ | ⟨hn, e⟩ | ⟨v, hn, _, e⟩
    · rw [e, List.mem_singleton] at hk
      subst hk; exact ⟨by simp, hn⟩
    · rw [e] at hk
      rcases List.mem_cons.1 hk with rfl | hk
      · exact ⟨by simp, hn⟩
      · obtain ⟨h1, h2⟩ := ih _ k hk
        refine ⟨by simp [h1], ?_⟩
        rw [GoMap.get?_set] at h2
        by_cases hkn : n = k
        · subst hkn; exact hn
        · simpa [hkn] using h2
    · rw [e] at hk; simp at hk
    · rw [e] at hk
      obtain ⟨h1, h2⟩ := ih _ k hk
      exact ⟨by simp [h1], h2⟩

/-- Every name ends up defined when the context does not already give the same value to one of them and all of them are wanted. What is
missing: see `C49_not_defined`. -/
theorem C49_defined_partial {α : Type} [DecidableEq α] (value : α) (context : GoMap α) (names : List Text) (hn : names.Nodup)
    (h : ∀ n ∈ names, context.get? n ≠ some value) : ∀ n ∈ names, ((setConstant false value context names).1.get? n).isSome = true := by
  induction names generalizing context with
  | nil => simp
  | cons m names ih =>
    intro n hmem
    simp only [List.nodup_cons] at hn
    have step : ∀ c : GoMap α, (c.get? m).isSome = true → (∀ n ∈ names, c.get? n ≠ some value) → ((setConstant false value c names).1.get? n).isSome = true := by
      intro c hc hcn
      rcases List.mem_cons.1 hmem with rfl | hm
      · obtain ⟨v, hv⟩ := Option.isSome_iff_exists.1 hc
        rw [C49_kept false value c names _ v hv]; rfl
      · exact ih c hn.2 hcn n hm
    rcases setConstant_cases false value context m names with ⟨_, h0, _⟩ | ⟨_, _, e⟩ | ⟨hv, _⟩ | ⟨v, hv, _, e⟩
    · simp at h0
    · rw [e]
      apply step
      · simp [GoMap.get?_set]
      · intro k hk
        rw [GoMap.get?_set]
        have : m ≠ k := fun e => hn.1 (e ▸ hk)
        simp only [this, if_false]
        exact h k (by simp [hk])
    · exact absurd hv (h m (by simp))
    · rw [e]
      apply step
      · rw [hv]; rfl
      · intro k hk; exact h k (by simp [hk])

example : (setConstant false (T "\n") [(T "CR", T "mine")] [T "NL", T "CR", T "NEWLINE"]) =
    ([(T "CR", T "mine"), (T "NL", T "\n"), (T "NEWLINE", T "\n")], [T "NL", T "NEWLINE"]) := by decide

/-- When the context already gives the value to the first name, the others are not defined. -/
theorem C49_not_defined : ∃ (value : Text) (context : GoMap Text) (names : List Text), T "NEWLINE" ∈ names ∧
    (setConstant false value context names).1.get? (T "NEWLINE") = none :=
  ⟨T "\n", [(T "NL", T "\n")], [T "NL", T "CR", T "NEWLINE"], by decide, by decide⟩

example : ∃ os w', History (fileStep namedSetup false) (fun _ => none, ()) [T "/w/a.gt", T "/w/bad.gt"] os w' ∧ [T "/w/a.generated"] = os.filterMap writtenFile ∧
    [T "bad"] = os.filterMap fileError := by
  have h : (processAll namedSetup false (fun _ => none, ()) [T "/w/a.gt", T "/w/bad.gt"]).1 = some ([T "/w/a.generated"], [T "bad"]) := by decide +kernel
  obtain ⟨os, h⟩ := C47_complete_partial namedSetup false _ _ _ _ _ _ (Prod.ext h rfl)
  exact ⟨os, _, h⟩
example : ∃ x changed mode b c ops k, namedSetup.render () (fun _ => none) (T "/w/a.gt") = (.file x changed mode b, c) ∧
    plan ⟨T "/w/a.gt", T "/w", T "/w", false, false || b, x, changed, mode⟩ = some (T "/w/a.generated", ops) ∧
    (one namedSetup false (fun _ => none, ()) (T "/w/a.gt")).2.2.1 = run (T "/w") (fun _ => none) (ops.take k) ∧ Op.fill (T "/w/a.generated") x ∈ ops.take k :=
  C47_reported namedSetup false (fun _ => none, ()) (T "/w/a.gt") (T "/w/a.generated") (by decide +kernel) (by decide)
example : delimiters (T ",,$") = some [T "{{", T "}}", T "$"] := C48_parts (T ",,$") (by decide)
example : delimiters (T "a,b,c,") = none := C48_refused (T "a,b,c,") (by decide)
example : T "NL" ∈ [T "NL", T "CR"] ∧ GoMap.get? [(T "CR", T "mine")] (T "NL") = none := C49_new false (T "\n") [(T "CR", T "mine")] [T "NL", T "CR"] (T "NL") (by decide)
example : ∀ n ∈ [T "NL", T "CR"], ((setConstant false (T "\n") [(T "CR", T "mine")] [T "NL", T "CR"]).1.get? n).isSome = true :=
  C49_defined_partial (T "\n") [(T "CR", T "mine")] [T "NL", T "CR"] (by decide) (by decide)


end Verif.Props
