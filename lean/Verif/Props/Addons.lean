import Verif.Model.Addons
import Verif.Spec.AddonsSpec
import Verif.Props.TableNames
/-!
# C106 The options turn on exactly what they name
-/

namespace Verif.Props
open Verif Addons FuncTable Spec

theorem put_get (s : Set') (o : Opt) (v : Bool) (x : Opt) : put s o v x = if x = o then v else s x := rfl

theorem setAll_get (s : Set') (v : Bool) (os : List Opt) (x : Opt) : setAll s v os x = if x ∈ os then v else s x := by
  induction os generalizing s with
  | nil => simp [setAll]
  | cons o os ih =>
    simp only [setAll, List.foldl_cons] at *
    rw [ih, put_get]
    by_cases h1 : x ∈ os
    · simp [h1]
    · by_cases h2 : x = o <;> simp [h1, h2]

/-- **C106.** Setting options turns on exactly the options named, and unsetting them turns them off; the others are as before. -/
theorem C106_set (s : Set') (os : List Opt) (x : Opt) :
    (Addons.set s os x = true ↔ x ∈ os ∨ s x = true) ∧ (unset s os x = true ↔ x ∉ os ∧ s x = true) := by
  simp only [Addons.set, unset, setAll_get]
  by_cases h : x ∈ os <;> simp [h]

example : Addons.set defaults [.overwrite] .overwrite = true ∧ unset defaults [.math] .math = false ∧ unset defaults [.math] .data = true := by decide

/-- **C106.** The options that are on when nothing is said: the two languages and the nine addons with functions. -/
theorem C106_defaults (x : Opt) : defaults x = true ↔ x ∈ [Opt.razor, .extension] ++ Addons.groups := by
  unfold defaults
  rw [setAll_get]
  cases x <;> decide

theorem putAll_get (v : Opt → Bool) (os : List Opt) (s : Set') (x : Opt) : os.foldl (fun s o => put s o (v o)) s x = if x ∈ os then v x else s x := by
  induction os generalizing s with
  | nil => simp
  | cons o os ih =>
    rw [List.foldl_cons, ih, put_get]
    by_cases h1 : x ∈ os
    · simp [h1]
    · by_cases h2 : x = o
      · subst h2
        simp [h1]
      · simp [h1, h2]

theorem mem_addons (o : Opt) : o ∈ Opt.all.take Opt.onByDefaultCount.number ↔ o.isAddon = true := by
  cases o <;> decide

theorem ofFlags_addon (f : Flags) {o : Opt} (h : o.isAddon = true) : ofFlags f o = (f.given o).getD (!decide (c!"--base" ∈ f.args)) := by
  unfold ofFlags
  rw [putAll_get]
  have : loadAll f.args = !decide (c!"--base" ∈ f.args) := by
    unfold loadAll
    congr 1
    rw [Bool.eq_iff_iff]
    simp
  rw [if_pos ((mem_addons o).mpr h)]
  unfold addon
  rw [this]

/-- **C106.** When `--base` is written if and only if it is the flag of that name, an addon is on if its flag is given and true, or if neither its flag
nor `--base` are given. -/
theorem C106_addons_partial (f : Flags) (hb : f.base = true ↔ c!"--base" ∈ f.args) (o : Opt) (ho : o ∈ [Opt.razor, .extension] ++ Addons.groups) :
    ofFlags f o = (f.given o).getD (!f.base) := by
  rw [ofFlags_addon f (by revert ho; cases o <;> decide)]
  congr 1
  congr 1
  rw [Bool.eq_iff_iff, hb]
  simp

/-- Only the mathematical functions. -/
example : let f : Flags := ⟨[c!"--base", c!"--math"], true, fun o => if o = .math then some true else none, false, false, false, false, false⟩
    (f.base = true ↔ c!"--base" ∈ f.args) ∧ ofFlags f .math = true ∧ ofFlags f .data = false ∧ ofFlags f .razor = false := by decide +kernel

/-- **C106.** The other options are those of their flags. -/
theorem C106_flags (f : Flags) : ofFlags f .renderingDisabled = f.disable ∧ ofFlags f .overwrite = f.overwrite ∧ ofFlags f .outputStdout = f.print ∧
    ofFlags f .acceptNoValue = f.acceptNoValue ∧ ofFlags f .strictErrorCheck = f.strict := by
  unfold ofFlags
  refine ⟨?_, ?_, ?_, ?_, ?_⟩ <;> (rw [putAll_get, if_neg (by decide)]; simp [put_get])

/-- The flags of the addons have different names, which are those of the addons in lower case. -/
theorem C106_names : ([Opt.razor, .extension] ++ Addons.groups).map Opt.flag =
    [c!"razor", c!"extension", c!"sprig", c!"math", c!"data", c!"logging", c!"runtime", c!"utils", c!"net", c!"os", c!"git"] := by
  decide +kernel

/-- The flag `--base` given by a variable of the environment turns nothing off. -/
theorem C106_not_variable (f : Flags) (_ : f.base = true) (ha : c!"--base" ∉ f.args) (hg : ∀ o, f.given o = none) (o : Opt)
    (ho : o ∈ [Opt.razor, .extension] ++ Addons.groups) : ofFlags f o = true := by
  rw [ofFlags_addon f (by revert ho; cases o <;> decide), hg]
  simp [ha]

example : (⟨[c!"a.template"], true, fun _ => none, false, false, false, false, false⟩ : Flags).base = true ∧ c!"--base" ∉ [c!"a.template"] := by decide

/-- A template with the name `--base` turns all the addons off, although the flag is not given. -/
theorem C106_not_word (f : Flags) (_ : f.base = false) (ha : c!"--base" ∈ f.args) (hg : ∀ o, f.given o = none) (o : Opt)
    (ho : o ∈ [Opt.razor, .extension] ++ Addons.groups) : ofFlags f o = false := by
  rw [ofFlags_addon f (by revert ho; cases o <;> decide), hg]
  simp [ha]

example : (⟨[c!"--", c!"--base"], false, fun _ => none, false, false, false, false, false⟩ : Flags).base = false ∧ c!"--base" ∈ [c!"--", c!"--base"] := by
  decide

/-- **C106.** A template uses the options that it is given, or the default ones; the variables of the environment may only turn two of them on. -/
theorem C106_template (given : Option Set') (acceptNoValue strictError : Bool) (o : Opt) :
    ofTemplate given acceptNoValue strictError o =
      (given.getD defaults o || (acceptNoValue && decide (o = .acceptNoValue)) || (strictError && decide (o = .strictErrorCheck))) := by
  unfold ofTemplate
  cases acceptNoValue <;> cases strictError <;> simp only [put_get, if_true, if_false, Bool.false_eq_true, Bool.true_and, Bool.false_and, Bool.or_false] <;>
    (repeat' split) <;> simp_all

/-! ## The functions -/

variable {α : Type}

/-- A name or an alias of a map of functions. -/
def InTable (m : Table α) (k : Text) : Prop := (∃ e, m.get? k = some e) ∨ ∃ n f, m.get? n = some (.direct f) ∧ k ∈ f.aliases

theorem visit_outside {m : Table α} {s : Table α × Table α} {key : Text} (h1 : ∀ k e, s.1.get? k = some e → InTable m k)
    (h2 : ∀ k f, s.1.get? k = some (.direct f) → ∀ a ∈ f.aliases, InTable m a) :
    (∀ k e, (visit key s).1.get? k = some e → InTable m k) ∧ (∀ k f, (visit key s).1.get? k = some (.direct f) → ∀ a ∈ f.aliases, InTable m a) ∧
    ∀ k, ¬ InTable m k → (visit key s).2.get? k = s.2.get? k := by
  unfold visit
  split
  · exact ⟨h1, h2, fun _ _ => rfl⟩
  · rename_i f hf
    have hk := h1 _ _ hf
    have ha := h2 _ _ hf
    refine ⟨?_, ?_, ?_⟩
    · intro k e he
      rw [(addAliases_get _ _ _ _).1] at he
      split at he
      · rename_i hm
        exact ha k hm
      · simp only [GoMap.get?_set] at he
        split at he
        · rename_i h
          rw [← h]
          exact hk
        · exact h1 k e he
    · intro k g he
      rw [(addAliases_get _ _ _ _).1] at he
      split at he
      · cases he
      · simp only [GoMap.get?_set] at he
        split at he
        · cases he
          exact ha
        · exact h2 k g he
    · intro k hn
      rw [(addAliases_get _ _ _ _).2, if_neg (fun hm => hn (ha k hm))]
      simp only [GoMap.get?_set]
      rw [if_neg]
      rintro rfl
      exact hn hk
  · rename_i n f hf
    have hk := h1 _ _ hf
    refine ⟨?_, ?_, ?_⟩
    · intro k e he
      simp only [GoMap.get?_set] at he
      split at he
      · rename_i h
        rw [← h]
        exact hk
      · exact h1 k e he
    · intro k g he
      simp only [GoMap.get?_set] at he
      split at he
      · cases he
      · exact h2 k g he
    · intro k hn
      simp only [GoMap.get?_set]
      rw [if_neg]
      rintro rfl
      exact hn hk

theorem adds_outside {t m r : Table α} (h : Adds t m r) {k : Text} (hn : ¬ InTable m k) : r.get? k = t.get? k := by
  have key : ∀ (s : Table α × Table α) V r, Iterates m.keys s V r → (∀ k e, s.1.get? k = some e → InTable m k) →
      (∀ k f, s.1.get? k = some (.direct f) → ∀ a ∈ f.aliases, InTable m a) → r.get? k = s.2.get? k := by
    intro s V r h
    induction h with
    | done => exact fun _ _ => rfl
    | step _ _ _ ih =>
      intro h1 h2
      obtain ⟨k1, k2, k3⟩ := visit_outside h1 h2
      rw [ih k1 k2, k3 k hn]
  exact key _ _ _ h (fun k e he => .inl ⟨e, he⟩) (fun n f hf a ha => .inr ⟨n, f, hf, ha⟩)

theorem addsAll_outside {t r : Table α} {ms : List (Table α)} (h : AddsAll t ms r) {k : Text} (hn : ∀ m ∈ ms, ¬ InTable m k) : r.get? k = t.get? k := by
  induction h with
  | done => rfl
  | step h1 _ ih =>
    rw [ih (fun m hm => hn m (List.mem_cons_of_mem _ hm)), adds_outside h1 (hn _ (List.mem_cons_self ..))]

/-- **C106.** What none of the addons that are on brings cannot be called. -/
theorem C106_off (s : Set') (t : Opt → Table α) (r : Table α) (h : Functions s t r) (k : Text)
    (hn : ∀ o ∈ Addons.groups, s o = true → ¬ InTable (t o) k) : r.get? k = none := by
  rw [addsAll_outside h]
  · rfl
  · intro m hm
    obtain ⟨o, ho, rfl⟩ := List.mem_map.mp hm
    have := List.mem_filter.mp ho
    exact hn o this.1 this.2

theorem addsAll_lastOn {s : Set'} {t : Opt → Table α} (k : Text) (gs : List Opt) (impl : Opt → Option α)
    (h1 : ∀ o ∈ gs, s o = true → ∀ v, impl o = some v → Brings (listing (t o)) k v) (h2 : ∀ o ∈ gs, s o = true → impl o = none → ¬ InTable (t o) k) :
    ∀ (t₀ r : Table α), AddsAll t₀ ((gs.filter (fun o => s o)).map t) r →
      (r.get? k).map Entry.impl = (lastOn s impl gs).or ((t₀.get? k).map Entry.impl) := by
  induction gs with
  | nil =>
    intro t₀ r h
    cases h
    simp [lastOn]
  | cons g gs ih =>
    intro t₀ r h
    have ih := ih (fun o ho => h1 o (List.mem_cons_of_mem _ ho)) (fun o ho => h2 o (List.mem_cons_of_mem _ ho))
    simp only [lastOn]
    by_cases hg : s g = true
    · rw [List.filter_cons_of_pos hg, List.map_cons] at h
      cases h with
      | step k1 k2 =>
        rename_i t'
        rw [ih _ _ k2, if_pos hg]
        have : (t'.get? k).map Entry.impl = (impl g).or ((t₀.get? k).map Entry.impl) := by
          cases hi : impl g with
          | none => rw [adds_outside k1 (h2 g (List.mem_cons_self ..) hg hi)]; rfl
          | some v => rw [C51_name _ _ _ (h1 g (List.mem_cons_self ..) hg v hi) _ _ k1]; rfl
        rw [this, Option.or_assoc]
    · rw [List.filter_cons_of_neg hg] at h
      rw [ih _ _ h, if_neg hg]
      simp

/-- **C106.** When each addon gives one meaning to a name, or none, the name designates what the last of the addons that are on has under that name,
as a function or as an alias. It is partial, since the functions of sprig give two meanings to some names (C107). -/
theorem C106_functions_partial (s : Set') (t : Opt → Table α) (r : Table α) (h : Functions s t r) (k : Text) (impl : Opt → Option α)
    (h1 : ∀ o ∈ Addons.groups, s o = true → ∀ v, impl o = some v → Brings (listing (t o)) k v)
    (h2 : ∀ o ∈ Addons.groups, s o = true → impl o = none → ¬ InTable (t o) k) :
    (r.get? k).map Entry.impl = lastOn s impl Addons.groups := by
  have := addsAll_lastOn k Addons.groups impl h1 h2 [] r h
  simpa using this

/-- **C106.** Turning an addon on or off changes nothing for the names that it does not bring. -/
theorem C106_frame_partial (s s' : Set') (t : Opt → Table α) (r r' : Table α) (h : Functions s t r) (h' : Functions s' t r') (k : Text) (o : Opt)
    (hs : ∀ x, x ≠ o → s x = s' x) (hk : ¬ InTable (t o) k) (hb : ∀ x ∈ Addons.groups, InTable (t x) k → ∃ v, Brings (listing (t x)) k v) :
    (r.get? k).map Entry.impl = (r'.get? k).map Entry.impl := by
  have hex : ∀ x, ∃ i : Option α, (x ∈ Addons.groups → ∀ v, i = some v → Brings (listing (t x)) k v) ∧
      (x ∈ Addons.groups → i = none → ¬ InTable (t x) k) ∧ (x = o → i = none) := by
    intro x
    by_cases hn : InTable (t x) k ∧ x ∈ Addons.groups
    · obtain ⟨v, hv⟩ := hb x hn.2 hn.1
      exact ⟨some v, fun _ w hw => by cases hw; exact hv, fun _ h => (by cases h), fun hx => absurd (hx ▸ hn.1) hk⟩
    · exact ⟨none, fun _ v hv => (by cases hv), fun hx _ hi => hn ⟨hi, hx⟩, fun _ => rfl⟩
  obtain ⟨impl, hi⟩ := Classical.axiomOfChoice hex
  rw [C106_functions_partial s t r h k impl (fun x hx _ => (hi x).1 hx) (fun x hx _ => (hi x).2.1 hx),
    C106_functions_partial s' t r' h' k impl (fun x hx _ => (hi x).1 hx) (fun x hx _ => (hi x).2.1 hx)]
  have ho : impl o = none := (hi o).2.2 rfl
  generalize Addons.groups = gs
  induction gs with
  | nil => rfl
  | cons g gs ih =>
    simp only [lastOn, ih]
    by_cases hg : g = o
    · subst hg
      simp [ho]
    · rw [hs g hg]

/-- Two addons with a function of the same name; without the second, the first is used. -/
example : ∃ (t : Opt → Table Nat), (t .sprig).get? c!"get" = some (.direct (sampleFunc 1 [])) ∧ (t .data).get? c!"get" = some (.direct (sampleFunc 2 [])) ∧
    ∀ s r, Functions s t r → s .sprig = true → s .data = false → (r.get? c!"get").map Entry.impl = some 1 := by
  let t : Opt → Table Nat := fun o => match o with
    | .sprig => [(c!"get", .direct (sampleFunc 1 []))]
    | .data => [(c!"get", .direct (sampleFunc 2 []))]
    | _ => []
  refine ⟨t, by decide, by decide, ?_⟩
  intro s r h h1 h2
  rw [C106_functions_partial s t r h c!"get" (fun o => ((t o).get? c!"get").map Entry.impl) (fun o _ _ v hv => ?_) (fun o _ _ hn => ?_)]
  · simp [lastOn, Addons.groups, h1, h2, t, GoMap.get?_cons, sampleFunc, Entry.impl]
  · have one : ∀ (i : Nat), Brings (listing [(c!"get", .direct (sampleFunc i []))]) c!"get" i := by
      intro i
      refine ⟨?_, ?_, .inl ⟨i, [], rfl⟩⟩
      · intro w as hw
        cases hw
        rfl
      · intro n w as hw ha
        simp only [listing, GoMap.get?_cons, GoMap.get?_nil] at hw
        split at hw <;> cases hw
        cases ha
    cases o <;> first | (cases hv; done) | (cases hv; exact one _)
  · rintro (⟨e, he⟩ | ⟨n, f, hf, ha⟩)
    · rw [he] at hn
      cases hn
    · cases o <;> simp only [t, GoMap.get?_cons, GoMap.get?_nil] at hf <;> first | (cases hf; done) | (split at hf <;> cases hf; simp [sampleFunc] at ha)

end Verif.Props
