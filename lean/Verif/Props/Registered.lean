import Verif.Model.Registered
import Verif.Props.Addons
import Verif.Spec.RegisteredSpec
/-!
# C109: every function and alias of the addons has one meaning
-/

namespace Verif
namespace Props
open FuncTable Spec Addons Registered

variable {α : Type}

/-- The names of a function: its own and its aliases. -/
def callNames (c : Call) : List Text := c.funcs.flatMap fun e => e.1 :: (c.aliases.get? e.1).getD []

theorem all_names_nodup : (calls.flatMap callNames).Nodup := by decide +kernel

theorem all_aliases_nodup : ∀ c ∈ calls, c.aliases.keys.Nodup := by decide +kernel

theorem aliases_listed {m : GoMap (List Text)} (hm : m.keys.Nodup) (n k : Text) : k ∈ (m.get? n).getD [] ↔ ∃ as, (n, as) ∈ m ∧ k ∈ as := by
  constructor
  · intro h
    cases hg : m.get? n with
    | none => rw [hg] at h; cases h
    | some as => rw [hg] at h; exact ⟨as, GoMap.mem_of_get? hg, h⟩
  · rintro ⟨as, h1, h2⟩
    rw [GoMap.get?_of_mem hm h1]
    exact h2

theorem mem_callNames {c : Call} (ha : c.aliases.keys.Nodup) {k : Text} : k ∈ callNames c ↔ ∃ e ∈ c.funcs, CalledBy c.aliases e.1 k := by
  simp only [callNames, List.mem_flatMap, List.mem_cons, aliases_listed ha, CalledBy]

/-- The functions of a call, by name. -/
def callFuncs (lib : Text → α) (doc : Text → Text) (c : Call) : Text → Option (Func α) :=
  GoMap.get? (c.funcs.map fun e => (e.1, funcOf lib doc c.aliases e) : GoMap (Func α))

theorem callTable_get (lib : Text → α) (doc : Text → Text) (c : Call) (k : Text) : (c.table lib doc).get? k = (callFuncs lib doc c k).map .direct := by
  unfold Call.table callFuncs
  induction c.funcs with
  | nil => rfl
  | cons e es ih =>
    simp only [List.map_cons, GoMap.get?_cons]
    split
    · rfl
    · exact ih

theorem callFuncs_some {lib : Text → α} {doc : Text → Text} {c : Call} {n : Text} {f : Func α} (h : callFuncs lib doc c n = some f) :
    ∃ e ∈ c.funcs, e.1 = n ∧ f = funcOf lib doc c.aliases e := by
  have := GoMap.mem_of_get? h
  simp only [List.mem_map] at this
  obtain ⟨e, he, h'⟩ := this
  injection h' with h1 h2
  exact ⟨e, he, h1, h2.symm⟩

/-- In a list of functions with all names different, the names are those of one function. -/
theorem one_function {c : Call} (hn : (callNames c).Nodup) {e e' : Text × Text} (he : e ∈ c.funcs) (he' : e' ∈ c.funcs) {k : Text}
    (h : k ∈ e.1 :: (c.aliases.get? e.1).getD []) (h' : k ∈ e'.1 :: (c.aliases.get? e'.1).getD []) : e = e' := by
  unfold callNames List.Nodup at hn
  rw [List.pairwise_flatMap] at hn
  by_cases heq : e = e'
  · exact heq
  · have sym : ∀ {l : List (Text × Text)}, l.Pairwise (fun a b => ∀ x ∈ a.1 :: (c.aliases.get? a.1).getD [], ∀ y ∈ b.1 :: (c.aliases.get? b.1).getD [], x ≠ y) →
        e ∈ l → e' ∈ l → False := by
      intro l hl
      induction hl with
      | nil => intro h; cases h
      | cons h1 _ ih =>
        intro h2 h3
        rcases List.mem_cons.mp h2 with rfl | h4
        · rcases List.mem_cons.mp h3 with rfl | h3
          · exact heq rfl
          · exact h1 _ h3 _ h _ h' rfl
        · rcases List.mem_cons.mp h3 with rfl | h5
          · exact h1 _ h4 _ h' _ h rfl
          · exact ih h4 h5
    exact (sym hn.2 he he').elim

theorem callFuncs_mem (lib : Text → α) (doc : Text → Text) {c : Call} (hn : (callNames c).Nodup) {e : Text × Text} (he : e ∈ c.funcs) :
    callFuncs lib doc c e.1 = some (funcOf lib doc c.aliases e) := by
  cases h : callFuncs lib doc c e.1 with
  | none =>
    exact absurd (GoMap.get?_eq_none_iff.mp h) (by
      intro h'
      exact h' (List.mem_map.mpr ⟨_, List.mem_map.mpr ⟨e, he, rfl⟩, rfl⟩))
  | some f =>
    obtain ⟨e', he', h1, rfl⟩ := callFuncs_some h
    rw [one_function hn he he' (List.mem_cons_self ..) (by rw [h1]; exact List.mem_cons_self ..)]

theorem callFuncs_unambiguous (lib : Text → α) (doc : Text → Text) {c : Call} (hn : (callNames c).Nodup) :
    Unambiguous (fun n => (callFuncs lib doc c n).map Func.aliases) := by
  have own : ∀ e ∈ c.funcs, e.1 ∉ (c.aliases.get? e.1).getD [] := by
    unfold callNames List.Nodup at hn
    rw [List.pairwise_flatMap] at hn
    intro e he h
    exact (List.pairwise_cons.mp (hn.1 e he)).1 _ h rfl
  constructor
  · intro n m as bs h1 h2 h3
    obtain ⟨f, hf, rfl⟩ := Option.map_eq_some_iff.1 h1
    obtain ⟨g, hg, rfl⟩ := Option.map_eq_some_iff.1 h2
    obtain ⟨e, he, rfl, rfl⟩ := callFuncs_some hf
    obtain ⟨e', he', rfl, rfl⟩ := callFuncs_some hg
    have := one_function hn he he' (List.mem_cons_self ..) (List.mem_cons_of_mem _ h3)
    subst this
    exact own e he h3
  · intro n m as bs a h1 h2 h3 h4
    obtain ⟨f, hf, rfl⟩ := Option.map_eq_some_iff.1 h1
    obtain ⟨g, hg, rfl⟩ := Option.map_eq_some_iff.1 h2
    obtain ⟨e, he, rfl, rfl⟩ := callFuncs_some hf
    obtain ⟨e', he', rfl, rfl⟩ := callFuncs_some hg
    rw [one_function hn he he' (List.mem_cons_of_mem _ h3) (List.mem_cons_of_mem _ h4)]

/-- What a call adds. -/
theorem adds_call {lib : Text → α} {doc : Text → Text} {c : Call} (hn : (callNames c).Nodup) {t r : Table α} (h : Adds t (c.table lib doc) r) :
    (∀ e ∈ c.funcs, ∀ k ∈ e.1 :: (c.aliases.get? e.1).getD [],
      ∃ x, r.get? k = some x ∧ x.impl = lib e.2 ∧ x.realName = e.1 ∧ x.doc = doc e.1) ∧
    ∀ k, k ∉ callNames c → r.get? k = t.get? k := by
  obtain ⟨h1, h2, h3⟩ := C51_resolves_partial _ (callFuncs_unambiguous lib doc hn) t _ r (callTable_get lib doc c) h
  refine ⟨?_, ?_⟩
  · intro e he k hk
    have hf := callFuncs_mem lib doc hn he
    rcases List.mem_cons.mp hk with rfl | hk
    · exact ⟨_, h1 _ _ hf, rfl, rfl, rfl⟩
    · exact ⟨_, h2 _ _ _ hf hk, rfl, rfl, rfl⟩
  · intro k hk
    refine h3 k ?_
    rintro (⟨as, h⟩ | ⟨n, as, h, ha⟩)
    · obtain ⟨f, hf, rfl⟩ := Option.map_eq_some_iff.1 h
      obtain ⟨e, he, rfl, rfl⟩ := callFuncs_some hf
      exact hk (List.mem_flatMap.mpr ⟨e, he, List.mem_cons_self ..⟩)
    · obtain ⟨f, hf, rfl⟩ := Option.map_eq_some_iff.1 h
      obtain ⟨e, he, rfl, rfl⟩ := callFuncs_some hf
      exact hk (List.mem_flatMap.mpr ⟨e, he, List.mem_cons_of_mem _ ha⟩)

theorem adds_calls {lib : Text → α} {doc : Text → Text} (s : Set') : ∀ (cs : List Call) (_ : (cs.flatMap callNames).Nodup) {t r : Table α}
    (_ : AddsAll t ((cs.filter (fun c => s c.addon)).map (Call.table lib doc)) r),
    (∀ c ∈ cs, s c.addon = true → ∀ e ∈ c.funcs, ∀ k ∈ e.1 :: (c.aliases.get? e.1).getD [],
      ∃ x, r.get? k = some x ∧ x.impl = lib e.2 ∧ x.realName = e.1 ∧ x.doc = doc e.1) ∧
    ∀ k, (∀ c ∈ cs, s c.addon = true → k ∉ callNames c) → r.get? k = t.get? k
  | [], _, t, r, h => by
    cases h
    exact ⟨fun c hc => (by cases hc), fun _ _ => rfl⟩
  | c :: cs, hn, t, r, h => by
    have hn' := hn
    rw [List.flatMap_cons, List.nodup_append] at hn'
    obtain ⟨hc, hcs, hd⟩ := hn'
    by_cases hs : s c.addon = true
    · rw [List.filter_cons_of_pos (p := fun c : Call => s c.addon) hs, List.map_cons] at h
      cases h with
      | step ha hr =>
        obtain ⟨i1, i2⟩ := adds_calls s cs hcs hr
        obtain ⟨a1, a2⟩ := adds_call hc ha
        refine ⟨?_, ?_⟩
        · intro d hd' hsd e he k hk
          rcases List.mem_cons.mp hd' with rfl | hd'
          · rw [i2 k]
            · exact a1 e he k hk
            · intro d' hd'' _ hk'
              exact hd k (List.mem_flatMap.mpr ⟨e, he, hk⟩) k (List.mem_flatMap.mpr ⟨d', hd'', hk'⟩) rfl
          · exact i1 d hd' hsd e he k hk
        · intro k hk
          rw [i2 k (fun d hd' => hk d (List.mem_cons_of_mem _ hd')), a2 k (hk c (List.mem_cons_self ..) hs)]
    · rw [List.filter_cons_of_neg (p := fun c : Call => s c.addon) hs] at h
      obtain ⟨i1, i2⟩ := adds_calls s cs hcs h
      refine ⟨?_, fun k hk => i2 k (fun d hd' => hk d (List.mem_cons_of_mem _ hd'))⟩
      intro d hd' hsd
      rcases List.mem_cons.mp hd' with rfl | hd'
      · exact absurd hsd hs
      · exact i1 d hd' hsd

/-- C109: when an addon is on, each of its functions is called by its name and by each of its aliases, with its own documentation, in whatever order the
functions are registered and whatever was there before. -/
theorem C109_meaning (lib : Text → α) (doc : Text → Text) (s : Set') (t r : Table α) (h : Registers lib doc s t r) (c : Call) (hc : c ∈ calls)
    (hs : s c.addon = true) (name fn : Text) (he : (name, fn) ∈ c.funcs) (k : Text) (hk : CalledBy c.aliases name k) :
    ∃ x, r.get? k = some x ∧ x.impl = lib fn ∧ x.realName = name ∧ x.doc = doc name := by
  refine (adds_calls s calls all_names_nodup h).1 c hc hs (name, fn) he k ?_
  rcases hk with rfl | hk
  · exact List.mem_cons_self ..
  · exact List.mem_cons_of_mem _ ((aliases_listed (all_aliases_nodup c hc) _ _).mpr hk)

/-- C109: what is not a name or an alias of a function of an addon that is on keeps the meaning it had. -/
theorem C109_others (lib : Text → α) (doc : Text → Text) (s : Set') (t r : Table α) (h : Registers lib doc s t r) (k : Text)
    (hk : ∀ c ∈ calls, s c.addon = true → ∀ name fn, (name, fn) ∈ c.funcs → ¬ CalledBy c.aliases name k) : r.get? k = t.get? k := by
  refine (adds_calls s calls all_names_nodup h).2 k fun c hc hs hm => ?_
  obtain ⟨e, he, hk'⟩ := (mem_callNames (all_aliases_nodup c hc)).mp hm
  exact hk c hc hs e.1 e.2 he hk'

theorem addsAll_ends : ∀ (ms : List (Table α)) (t : Table α), (∀ m ∈ ms, m.WF) → ∃ r, AddsAll t ms r
  | [], t, _ => ⟨t, .done t⟩
  | m :: ms, t, h => by
    obtain ⟨t', ht⟩ := C51_ends t m (h m (List.mem_cons_self ..))
    obtain ⟨r, hr⟩ := addsAll_ends ms t' (fun x hx => h x (List.mem_cons_of_mem _ hx))
    exact ⟨r, .step ht hr⟩

theorem all_funcs_nodup : ∀ c ∈ calls, (c.funcs.map Prod.fst).Nodup := by decide +kernel

/-- C109: the functions can be registered, whichever addons are on. -/
theorem C109_registers (lib : Text → α) (doc : Text → Text) (s : Set') (t : Table α) : ∃ r, Registers lib doc s t r := by
  refine addsAll_ends _ t ?_
  intro m hm
  obtain ⟨c, hc, rfl⟩ := List.mem_map.mp hm
  have := all_funcs_nodup c (List.mem_filter.mp hc).1
  unfold GoMap.WF Call.table GoMap.keys
  rw [List.map_map]
  exact this

/-- C109: no name and no alias is declared twice in the addons. -/
theorem C109_once (c c' : Call) (hc : c ∈ calls) (hc' : c' ∈ calls) (name fn name' fn' k : Text) (he : (name, fn) ∈ c.funcs)
    (he' : (name', fn') ∈ c'.funcs) (h : CalledBy c.aliases name k) (h' : CalledBy c'.aliases name' k) : name = name' ∧ fn = fn' := by
  obtain ⟨r, hr⟩ := C109_registers (α := Text) id id (fun _ => true) []
  obtain ⟨x, hx, h1, h2, _⟩ := C109_meaning id id _ [] r hr c hc rfl name fn he k h
  obtain ⟨y, hy, h3, h4, _⟩ := C109_meaning id id _ [] r hr c' hc' rfl name' fn' he' k h'
  rw [hx] at hy
  injection hy with hy
  subst hy
  exact ⟨h2.symm.trans h4, h1.symm.trans h3⟩

/-- C109: the aliases are those of functions that the same addon has. -/
theorem C109_aliases : ∀ c ∈ calls, ∀ name as, (name, as) ∈ c.aliases → ∃ c' ∈ calls, c'.addon = c.addon ∧ ∃ fn, (name, fn) ∈ c'.funcs := by
  have h : ∀ c ∈ calls, ∀ p ∈ c.aliases, ∃ c' ∈ calls, c'.addon = c.addon ∧ ∃ e ∈ c'.funcs, e.1 = p.1 := by decide +kernel
  intro c hc name as hp
  obtain ⟨c', hc', ha, e, he, h1⟩ := h c hc (name, as) hp
  replace h1 : e.1 = name := h1
  exact ⟨c', hc', ha, e.2, by rw [← h1]; exact he⟩

/-- C109, violated: names of arguments are given for functions that do not exist; the functions that were meant have other names and show none. -/
theorem C109_not_arguments : (∃ as, (c!"nextafter", as) ∈ mathFuncsArgs) ∧ (∀ c ∈ calls, ∀ e ∈ c.funcs, e.1 ≠ c!"nextafter") ∧
    (c!"nextAfter", c!"nextAfter") ∈ mathUtilFuncs ∧ ∀ as, (c!"nextAfter", as) ∉ mathFuncsArgs := by
  refine ⟨?_, by decide +kernel, by decide +kernel, ?_⟩
  · have h : ∃ p ∈ mathFuncsArgs, p.1 = c!"nextafter" := by decide +kernel
    obtain ⟨p, hp, h1⟩ := h
    exact ⟨p.2, by rw [← h1]; exact hp⟩
  · have h : ∀ p ∈ mathFuncsArgs, p.1 ≠ c!"nextAfter" := by decide +kernel
    exact fun as ha => h _ ha rfl

example : ∃ c ∈ calls, c.addon = .math ∧ (c!"add", c!"add") ∈ c.funcs ∧ CalledBy c.aliases (c!"add") (c!"sum") :=
  ⟨⟨.math, mathBaseFuncs, mathFuncsAliases⟩, by simp [calls], rfl, by decide +kernel,
    Or.inr ((aliases_listed (by decide +kernel) _ _).mp (by decide +kernel))⟩

end Props
end Verif
