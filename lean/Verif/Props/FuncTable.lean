import Verif.Model.FuncTable
import Verif.Spec.TableSpec
/-!
# C51: the table of functions
-/

namespace Verif.Props
open Verif Text FuncTable Spec

variable {α : Type}

theorem addAliases_get (f : Func α) (as : List Text) (s : Table α × Table α) (k : Text) :
    (addAliases f as s).1.get? k = (if k ∈ as then some (.alias k f) else s.1.get? k) ∧
    (addAliases f as s).2.get? k = (if k ∈ as then some (.alias k f) else s.2.get? k) := by
  induction as generalizing s with
  | nil => simp [addAliases]
  | cons a as ih =>
    simp only [addAliases]
    obtain ⟨h1, h2⟩ := ih (s.1.set a (.alias a f), s.2.set a (.alias a f))
    rw [h1, h2]
    simp only [GoMap.get?_set, List.mem_cons]
    by_cases ha : a = k
    · subst ha; by_cases hk : a ∈ as <;> simp [hk]
    · by_cases hk : k ∈ as
      · simp [hk]
      · simp [hk, ha, Ne.symm ha]

/-- The function as it is in a table: with the name it is registered under. -/
def under (n : Text) (f : Func α) : Func α := { f with name := n }

/-- What holds between two visits. -/
structure TableInv (fs : Text → Option (Func α)) (t : Table α) (s : Table α × Table α) (V : List Text) : Prop where
  main : ∀ k f, fs k = some f → s.1.get? k = some (.direct f) ∨ s.1.get? k = some (.direct (under k f))
  other : ∀ k e, fs k = none → s.1.get? k = some e → ∃ n f, fs n = some f ∧ n ∈ V ∧ k ∈ f.aliases ∧ e = .alias k (under n f)
  direct : ∀ k f, fs k = some f → k ∈ V → s.2.get? k = some (.direct (under k f))
  aliased : ∀ n f a, fs n = some f → n ∈ V → a ∈ f.aliases → s.2.get? a = some (.alias a (under n f))
  rest : ∀ k, ¬ NamedBy (fun n => (fs n).map Func.aliases) k → s.2.get? k = t.get? k

theorem TableInv.visit {fs : Text → Option (Func α)} {t : Table α} {s : Table α × Table α} {V : List Text}
    (hu : Unambiguous (fun n => (fs n).map Func.aliases)) (hi : TableInv fs t s V) {k : Text} (hk : s.1.has k = true) :
    TableInv fs t (FuncTable.visit k s) (k :: V) := by
  have hu1 : ∀ n m f g, fs n = some f → fs m = some g → n ∉ g.aliases := fun n m f g hf hg => hu.1 n m f.aliases g.aliases (by simp [hf]) (by simp [hg])
  have hu2 : ∀ n m f g a, fs n = some f → fs m = some g → a ∈ f.aliases → a ∈ g.aliases → n = m :=
    fun n m f g a hf hg => hu.2 n m f.aliases g.aliases a (by simp [hf]) (by simp [hg])
  cases hf : fs k with
  | some f =>
    have hv : FuncTable.visit k s = addAliases (under k f) f.aliases (s.1.set k (.direct (under k f)), s.2.set k (.direct (under k f))) := by
      unfold FuncTable.visit
      rcases hi.main k f hf with h | h <;> rw [h] <;> rfl
    have hkf : k ∉ f.aliases := hu1 k k f f hf hf
    rw [hv]
    constructor
    · intro x g hx
      rw [(addAliases_get _ _ _ _).1, if_neg (hu1 x k g f hx hf)]
      simp only [GoMap.get?_set]
      by_cases h : k = x
      · subst h; rw [hf] at hx; injection hx with hx; subst hx; simp
      · simp only [h, if_false]; exact hi.main x g hx
    · intro x e hx hxe
      rw [(addAliases_get _ _ _ _).1] at hxe
      by_cases h : x ∈ f.aliases
      · rw [if_pos h] at hxe
        injection hxe with hxe
        exact ⟨k, f, hf, by simp, h, hxe.symm⟩
      · rw [if_neg h, GoMap.get?_set] at hxe
        have hne : k ≠ x := by rintro rfl; rw [hf] at hx; cases hx
        rw [if_neg hne] at hxe
        obtain ⟨n, g, h1, h2, h3, h4⟩ := hi.other x e hx hxe
        exact ⟨n, g, h1, by simp [h2], h3, h4⟩
    · intro x g hx hxV
      rw [(addAliases_get _ _ _ _).2, if_neg (hu1 x k g f hx hf), GoMap.get?_set]
      by_cases h : k = x
      · subst h; rw [hf] at hx; injection hx with hx; subst hx; simp
      · rw [if_neg h]
        exact hi.direct x g hx ((List.mem_cons.1 hxV).resolve_left (Ne.symm h))
    · intro n g a hn hnV ha
      rw [(addAliases_get _ _ _ _).2]
      by_cases h : a ∈ f.aliases
      · have := hu2 n k g f a hn hf ha h
        subst this
        rw [hf] at hn; injection hn with hn; subst hn
        rw [if_pos h]
      · rw [if_neg h, GoMap.get?_set, if_neg (by rintro rfl; exact hu1 _ n f g hf hn ha)]
        refine hi.aliased n g a hn ?_ ha
        rcases List.mem_cons.1 hnV with rfl | h'
        · rw [hf] at hn; injection hn with hn; subst hn; exact absurd ha h
        · exact h'
    · intro x hx
      rw [(addAliases_get _ _ _ _).2, if_neg (fun h => hx (.inr ⟨k, _, by simp only [hf]; rfl, h⟩)), GoMap.get?_set,
        if_neg (by rintro rfl; exact hx (.inl ⟨_, by simp only [hf]; rfl⟩))]
      exact hi.rest x hx
  | none =>
    obtain ⟨e, he⟩ := Option.isSome_iff_exists.1 hk
    obtain ⟨n, f, h1, h2, h3, rfl⟩ := hi.other k e hf he
    have hv : FuncTable.visit k s = (s.1.set k (.alias k (under n f)), s.2.set k (.alias k (under n f))) := by
      unfold FuncTable.visit; rw [he]
    rw [hv]
    have hsame2 : ∀ x, (s.2.set k (.alias k (under n f))).get? x = s.2.get? x := by
      intro x
      rw [GoMap.get?_set]
      split
      · rename_i h; subst h; exact (hi.aliased n f k h1 h2 h3).symm
      · rfl
    have hsame1 : ∀ x, (s.1.set k (.alias k (under n f))).get? x = s.1.get? x := by
      intro x
      rw [GoMap.get?_set]
      split
      · rename_i h; subst h; exact he.symm
      · rfl
    constructor
    · intro x g hx; simp only [hsame1]; exact hi.main x g hx
    · intro x e hx hxe
      simp only [hsame1] at hxe
      obtain ⟨n', g, k1, k2, k3, k4⟩ := hi.other x e hx hxe
      exact ⟨n', g, k1, by simp [k2], k3, k4⟩
    · intro x g hx hxV
      simp only [hsame2]
      rcases List.mem_cons.1 hxV with rfl | h'
      · rw [hf] at hx; cases hx
      · exact hi.direct x g hx h'
    · intro n' g a hn hnV ha
      simp only [hsame2]
      rcases List.mem_cons.1 hnV with rfl | h'
      · rw [hf] at hn; cases hn
      · exact hi.aliased n' g a hn h' ha
    · intro x hx
      simp only [hsame2]
      exact hi.rest x hx

/-- When the aliases make no conflict, whatever the order of the iteration: each function is found under its name, each alias leads to its
function, and the rest of the table does not change. -/
theorem C51_resolves_partial (fs : Text → Option (Func α)) (hu : Unambiguous (fun n => (fs n).map Func.aliases)) (t m r : Table α)
    (hm : ∀ k, m.get? k = (fs k).map .direct) (h : Adds t m r) :
    (∀ n f, fs n = some f → r.get? n = some (.direct { f with name := n })) ∧
    (∀ n f a, fs n = some f → a ∈ f.aliases → r.get? a = some (.alias a { f with name := n })) ∧
    (∀ k, ¬ NamedBy (fun n => (fs n).map Func.aliases) k → r.get? k = t.get? k) := by
  have key : ∀ s V r, Iterates m.keys s V r → TableInv fs t s V →
      ∃ V', (∀ k ∈ m.keys, k ∈ V') ∧ ∃ s', s'.2 = r ∧ TableInv fs t s' V' := by
    intro s V r h
    induction h with
    | @done s V hV => exact fun hi => ⟨V, hV, s, rfl, hi⟩
    | step _ hk _ ih => exact fun hi => ih (hi.visit hu hk)
  obtain ⟨V, hV, s, rfl, hi⟩ := key _ _ _ h {
    main := fun k f hf => .inl (by simp [hm, hf])
    other := fun k e hf he => by simp [hm, hf] at he
    direct := fun _ _ _ h => by simp at h
    aliased := fun _ _ _ _ h => by simp at h
    rest := fun _ _ => rfl }
  have hin : ∀ n f, fs n = some f → n ∈ V := fun n f hf => hV n (GoMap.mem_keys_iff.2 (by rw [hm, hf]; rfl))
  exact ⟨fun n f hf => hi.direct n f hf (hin n f hf), fun n f a hf ha => hi.aliased n f a hf (hin n f hf) ha, hi.rest⟩

/-- An alias calls the same function as the name, with the same documentation, and tells the real name. -/
theorem C51_same_partial (fs : Text → Option (Func α)) (hu : Unambiguous (fun n => (fs n).map Func.aliases)) (t m r : Table α)
    (hm : ∀ k, m.get? k = (fs k).map .direct) (h : Adds t m r) (n a : Text) (f : Func α) (hf : fs n = some f) (ha : a ∈ f.aliases) :
    ∃ e e', r.get? n = some e ∧ r.get? a = some e' ∧ e.impl = f.impl ∧ e'.impl = f.impl ∧ e.doc = f.doc ∧ e'.doc = f.doc ∧
      e.name = n ∧ e'.name = a ∧ e.realName = n ∧ e'.realName = n ∧ e.aliases = f.aliases ∧ e'.aliases = f.aliases := by
  obtain ⟨h1, h2, _⟩ := C51_resolves_partial fs hu t m r hm h
  exact ⟨_, _, h1 n f hf, h2 n f a hf ha, rfl, rfl, rfl, rfl, rfl, rfl, rfl, rfl, rfl, rfl⟩

/-- The table does not depend on the order of the iteration. -/
theorem C51_order_partial (fs : Text → Option (Func α)) (hu : Unambiguous (fun n => (fs n).map Func.aliases)) (t m r r' : Table α)
    (hm : ∀ k, m.get? k = (fs k).map .direct) (h : Adds t m r) (h' : Adds t m r') (k : Text) : r.get? k = r'.get? k := by
  obtain ⟨h1, h2, h3⟩ := C51_resolves_partial fs hu t m r hm h
  obtain ⟨k1, k2, k3⟩ := C51_resolves_partial fs hu t m r' hm h'
  by_cases hn : NamedBy (fun n => (fs n).map Func.aliases) k
  · rcases hn with ⟨as, hk⟩ | ⟨n, as, hn, hk⟩
    · obtain ⟨f, hf, _⟩ := Option.map_eq_some_iff.1 hk
      rw [h1 k f hf, k1 k f hf]
    · obtain ⟨f, hf, rfl⟩ := Option.map_eq_some_iff.1 hn
      rw [h2 n f k hf hk, k2 n f k hf hk]
  · rw [h3 k hn, k3 k hn]

/-- Visiting the keys of the map in some order is one of the possible iterations. -/
theorem adds_list (t m : Table α) (ks : List Text) (hn : ks.Nodup) (hk : ∀ k, k ∈ ks ↔ k ∈ m.keys) :
    Adds t m (ks.foldl (fun s k => FuncTable.visit k s) (m, t)).2 := by
  have keep : ∀ (x k : Text) (s : Table α × Table α), s.1.has x = true → (FuncTable.visit k s).1.has x = true := by
    intro x k s hx
    unfold GoMap.has at *
    unfold FuncTable.visit
    split
    · exact hx
    · rw [(addAliases_get _ _ _ _).1]
      split
      · rfl
      · rw [GoMap.get?_set]; split
        · rfl
        · exact hx
    · rw [GoMap.get?_set]; split
      · rfl
      · exact hx
  have key : ∀ (ks : List Text) (s : Table α × Table α) (V : List Text), ks.Nodup → (∀ k ∈ ks, k ∉ V) → (∀ k ∈ ks, s.1.has k = true) →
      (∀ k ∈ m.keys, k ∈ V ∨ k ∈ ks) → Iterates m.keys s V (ks.foldl (fun s k => FuncTable.visit k s) s).2 := by
    intro ks
    induction ks with
    | nil => intro s V _ _ _ hV; exact .done (fun k hk => (hV k hk).resolve_right (by simp))
    | cons k ks ih =>
      intro s V hn hd hh hV
      have hn' := List.nodup_cons.1 hn
      refine .step (hd k (by simp)) (hh k (by simp)) (ih (FuncTable.visit k s) (k :: V) hn'.2 ?_ ?_ ?_)
      · intro x hx
        simp only [List.mem_cons, not_or]
        exact ⟨by rintro rfl; exact hn'.1 hx, hd x (by simp [hx])⟩
      · exact fun x hx => keep x k s (hh x (by simp [hx]))
      · intro x hx
        rcases hV x hx with h | h
        · exact .inl (by simp [h])
        · rcases List.mem_cons.1 h with rfl | h
          · exact .inl (by simp)
          · exact .inr h
  exact key ks (m, t) [] hn (by simp) (fun k h => GoMap.has_iff.2 ((hk k).1 h)) (fun k h => .inr ((hk k).2 h))

/-- The registration can always end, so that the theorems above speak of something. -/
theorem C51_ends (t m : Table α) (hw : m.WF) : ∃ r, Adds t m r := ⟨_, adds_list t m m.keys hw (fun _ => Iff.rfl)⟩

/-- A function for the examples. -/
def sampleFunc (impl : Nat) (aliases : List Text) : Func Nat := ⟨[], impl, T "doc", [T "example"], aliases⟩

theorem unambiguous_of (m : GoMap (Func α)) (h : ∀ e ∈ m, ∀ e' ∈ m, e.1 ∉ e'.2.aliases ∧ ∀ a ∈ e.2.aliases, a ∈ e'.2.aliases → e.1 = e'.1) :
    Unambiguous (fun n => (m.get? n).map Func.aliases) := by
  constructor
  · intro n k as bs h1 h2
    obtain ⟨f, hf, rfl⟩ := Option.map_eq_some_iff.1 h1
    obtain ⟨g, hg, rfl⟩ := Option.map_eq_some_iff.1 h2
    exact (h _ (GoMap.mem_of_get? hf) _ (GoMap.mem_of_get? hg)).1
  · intro n k as bs a h1 h2 ha hb
    obtain ⟨f, hf, rfl⟩ := Option.map_eq_some_iff.1 h1
    obtain ⟨g, hg, rfl⟩ := Option.map_eq_some_iff.1 h2
    exact (h _ (GoMap.mem_of_get? hf) _ (GoMap.mem_of_get? hg)).2 a ha hb

example : Unambiguous (fun n => ((GoMap.get? [(T "len", sampleFunc 1 [T "length", T "size"]), (T "add", sampleFunc 2 [T "sum"])] n).map Func.aliases)) :=
  unambiguous_of _ (by decide)

/-- An alias shared by two functions leads to the one that the iteration visits last (`without` is in this case among the functions of
extra_sprig.go:227,242). -/
theorem C51_not_order : ∃ (m r r' : Table Nat), m.WF ∧ (∀ e ∈ m, ∃ f, e.2 = .direct f) ∧ Adds [] m r ∧ Adds [] m r' ∧
    (r.get? (T "without")).map Entry.impl = some 2 ∧ (r'.get? (T "without")).map Entry.impl = some 1 :=
  ⟨[(T "all", .direct (sampleFunc 1 [T "without"])), (T "withoutSprig", .direct (sampleFunc 2 [T "without"]))], _, _, by decide, by simp,
    adds_list _ _ [T "all", T "withoutSprig"] (by decide) (by intro k; simp [GoMap.keys]),
    adds_list _ _ [T "withoutSprig", T "all"] (by decide) (by intro k; simp [GoMap.keys]; exact Or.comm), by decide +kernel, by decide +kernel⟩

/-- A function whose name is an alias of another one is lost; whether its own aliases are registered depends on the order. -/
theorem C51_not_hidden : ∃ (m r r' : Table Nat) (f : Func Nat), m.get? (T "b") = some (.direct f) ∧ T "c" ∈ f.aliases ∧ Adds [] m r ∧ Adds [] m r' ∧
    (r.get? (T "b")).map Entry.impl ≠ some f.impl ∧ (r'.get? (T "b")).map Entry.impl ≠ some f.impl ∧
    r.get? (T "c") = none ∧ (r'.get? (T "c")).map Entry.impl = some f.impl :=
  ⟨[(T "a", .direct (sampleFunc 1 [T "b"])), (T "b", .direct (sampleFunc 2 [T "c"]))], _, _, sampleFunc 2 [T "c"], by decide, by decide,
    adds_list _ _ [T "a", T "b"] (by decide) (by intro k; simp [GoMap.keys]),
    adds_list _ _ [T "b", T "a"] (by decide) (by intro k; simp [GoMap.keys]; exact Or.comm), by decide +kernel, by decide +kernel, by decide +kernel, by decide +kernel⟩

theorem addsAll_last {t r : Table α} {ms : List (Table α)} {m : Table α} (h : AddsAll t (ms ++ [m]) r) : ∃ t', Adds t' m r := by
  induction ms generalizing t with
  | nil =>
    cases h with
    | step h1 h2 => cases h2; exact ⟨_, h1⟩
  | cons x ms ih =>
    cases h with
    | step _ h2 => exact ih h2

/-- A function that the user registers under a predefined name (or alias) is replaced by the predefined one in every context used to render:
the predefined functions are added again after those of the user. -/
theorem C51_not_user (fs : Text → Option (Func α)) (hu : Unambiguous (fun n => (fs n).map Func.aliases)) (user : List (Table α)) (predefined r : Table α)
    (hm : ∀ k, predefined.get? k = (fs k).map .direct) (h : AddsAll [] (user ++ [predefined]) r) (n : Text) (f : Func α) (hf : fs n = some f) :
    (r.get? n).map Entry.impl = some f.impl ∧ ∀ a ∈ f.aliases, (r.get? a).map Entry.impl = some f.impl := by
  obtain ⟨t, ht⟩ := addsAll_last h
  obtain ⟨h1, h2, _⟩ := C51_resolves_partial fs hu t predefined r hm ht
  exact ⟨by rw [h1 n f hf]; rfl, fun a ha => by rw [h2 n f a hf ha]; rfl⟩

/-- The examples of a function are not given for its aliases. -/
theorem C51_not_examples : ∃ (m r : Table Nat), Adds [] m r ∧ (r.get? (T "len")).map Entry.examples = some [T "example"] ∧
    (r.get? (T "size")).map Entry.examples = some [] :=
  ⟨[(T "len", .direct (sampleFunc 1 [T "size"]))], _, adds_list _ _ [T "len"] (by decide) (by intro k; simp [GoMap.keys]), by decide +kernel, by decide +kernel⟩

/-- A few functions to register. -/
private def fewFuncs : GoMap (Func Nat) := [(T "len", sampleFunc 1 [T "length", T "size"]), (T "add", sampleFunc 2 [T "sum"])]

private def fewTable : Table Nat := [(T "len", .direct (sampleFunc 1 [T "length", T "size"])), (T "add", .direct (sampleFunc 2 [T "sum"]))]

private theorem fewTable_get (k : Text) : fewTable.get? k = (fewFuncs.get? k).map .direct := by
  simp only [fewTable, fewFuncs, GoMap.get?_cons, GoMap.get?_nil]
  split
  · rfl
  · split <;> rfl

example : ∃ r, Adds [] fewTable r ∧ r.get? (T "size") = some (.alias (T "size") { sampleFunc 1 [T "length", T "size"] with name := T "len" }) ∧
    (∃ e e', r.get? (T "add") = some e ∧ r.get? (T "sum") = some e' ∧ e.impl = 2 ∧ e'.impl = 2) ∧ ∀ r', Adds [] fewTable r' → ∀ k, r.get? k = r'.get? k := by
  obtain ⟨r, hr⟩ := C51_ends [] fewTable (by unfold GoMap.WF; decide)
  have hu : Unambiguous (fun n => (fewFuncs.get? n).map Func.aliases) := unambiguous_of _ (by decide)
  refine ⟨r, hr, (C51_resolves_partial _ hu [] fewTable r fewTable_get hr).2.1 (T "len") _ _ rfl (by decide), ?_,
    fun r' hr' k => C51_order_partial _ hu [] fewTable r r' fewTable_get hr hr' k⟩
  obtain ⟨e, e', h1, h2, h3, h4, _⟩ := C51_same_partial _ hu [] fewTable r fewTable_get hr (T "add") (T "sum") (sampleFunc 2 [T "sum"]) rfl (by decide)
  exact ⟨e, e', h1, h2, h3, h4⟩


end Verif.Props
