import Verif.Model.SprigTable
import Verif.Spec.SprigSpec
import Verif.Props.Addons
/-!
# C107 The functions of the library keep their meaning
-/

namespace Verif.Props
open Verif FuncTable SprigTable Spec

variable {α : Type}

/-- An update of a map, or none. -/
def putSome {γ : Type} (m : GoMap γ) : Option (Text × γ) → GoMap γ
  | none => m
  | some (n, f) => m.set n f

theorem foldSet_get {β γ : Type} (g : β → Option (Text × γ)) (l : List β) (m : GoMap γ) (x : Text) :
    (∀ y, (l.foldl (fun m e => putSome m (g e)) m).get? x = some y →
      (∃ e ∈ l, g e = some (x, y)) ∨ m.get? x = some y) ∧
    ((m.get? x).isSome ∨ (∃ e ∈ l, ∃ y, g e = some (x, y)) →
      ((l.foldl (fun m e => putSome m (g e)) m).get? x).isSome) := by
  induction l generalizing m with
  | nil =>
    refine ⟨fun y h => .inr h, ?_⟩
    rintro (h | ⟨e, h, _⟩)
    · exact h
    · cases h
  | cons b l ih =>
    simp only [List.foldl_cons]
    cases hg : g b with
    | none =>
      obtain ⟨h1, h2⟩ := ih m
      refine ⟨?_, ?_⟩
      · intro y hy
        rcases h1 y hy with ⟨e, he, h⟩ | h
        · exact .inl ⟨e, List.mem_cons_of_mem _ he, h⟩
        · exact .inr h
      · intro h
        apply h2
        rcases h with h | ⟨e, he, y, hy⟩
        · exact .inl h
        · rcases List.mem_cons.1 he with rfl | he
          · rw [hg] at hy
            cases hy
          · exact .inr ⟨e, he, y, hy⟩
    | some nf =>
      obtain ⟨n, f⟩ := nf
      obtain ⟨h1, h2⟩ := ih (m.set n f)
      refine ⟨?_, ?_⟩
      · intro y hy
        rcases h1 y hy with ⟨e, he, h⟩ | h
        · exact .inl ⟨e, List.mem_cons_of_mem _ he, h⟩
        · rw [GoMap.get?_set] at h
          split at h
          · rename_i hx
            cases h
            subst hx
            exact .inl ⟨b, List.mem_cons_self .., hg⟩
          · exact .inr h
      · intro h
        apply h2
        rw [GoMap.get?_set]
        by_cases hn : n = x
        · simp [hn]
        · rw [if_neg hn]
          rcases h with h | ⟨e, he, y, hy⟩
          · exact .inl h
          · rcases List.mem_cons.1 he with rfl | he
            · rw [hg] at hy
              cases hy
              exact absurd rfl hn
            · exact .inr ⟨e, he, y, hy⟩

theorem aliasMap_fold (o : List (Text × Info)) :
    aliasMap o = (o.flatMap (fun e => e.2.aliases.map (fun a => (a, e.1)))).foldl
      (fun m e => putSome m ((fun (e : Text × Text) => some e) e)) [] := by
  unfold aliasMap
  rw [List.foldl_flatMap]
  congr 1
  funext m e
  rw [List.foldl_map]
  rfl

/-- The map of aliases leads to a name that has the alias, when there is one. -/
theorem aliasMap_get (o : List (Text × Info)) (a : Text) :
    (∀ n, (aliasMap o).get? a = some n → ∃ i, (n, i) ∈ o ∧ a ∈ i.aliases) ∧
    (∀ n i, (n, i) ∈ o → a ∈ i.aliases → ∃ m, (aliasMap o).get? a = some m) := by
  rw [aliasMap_fold]
  obtain ⟨h1, h2⟩ := foldSet_get (fun (e : Text × Text) => some e) (o.flatMap (fun e => e.2.aliases.map (fun a => (a, e.1)))) [] a
  refine ⟨?_, ?_⟩
  · intro n hn
    rcases h1 n hn with ⟨e, he, h⟩ | h
    · cases h
      obtain ⟨x, hx, hm⟩ := List.mem_flatMap.1 he
      obtain ⟨b, hb, hh⟩ := List.mem_map.1 hm
      cases hh
      exact ⟨x.2, hx, hb⟩
    · cases h
  · intro n i hn ha
    apply Option.isSome_iff_exists.1
    apply h2
    refine .inr ⟨(a, n), List.mem_flatMap.2 ⟨(n, i), hn, List.mem_map.2 ⟨a, ha, rfl⟩⟩, n, rfl⟩

/-- The documented names with their aliases. -/
def docOf (ref : GoMap Info) (n : Text) : Option (List Text) := (ref.get? n).map Info.aliases

/-- The library has no function twice, nor the documentation a name, and the names of the documentation have a group. -/
structure Sound (ref : GoMap Info) (lib : GoMap α) : Prop where
  refKeys : ref.WF
  libKeys : lib.WF
  groups : ∀ n i, ref.get? n = some i → i.group ≠ [] ∧ n ≠ []

theorem register_get {ref : GoMap Info} {lib : GoMap α} (hs : Sound ref lib) {o₁ : List (Text × Info)} {o₂ : List (Text × α)} (h₁ : o₁.Perm ref)
    (h₂ : o₂.Perm lib) (n : Text) :
    (∀ e, (register ref (aliasMap o₁) o₂).get? n = some e → ∃ i v x, ref.get? n = some i ∧ lib.get? x = some v ∧ e = .direct ⟨n, v, i.doc, [], i.aliases⟩ ∧
      (x = n ∨ x ∈ i.aliases ∧ ref.get? x = none ∧ ¬ c!"must" <+: x)) ∧
    (∀ i v, ref.get? n = some i → lib.get? n = some v → ∃ e, (register ref (aliasMap o₁) o₂).get? n = some e) ∧
    (∀ i v x, ref.get? n = some i → x ∈ i.aliases → (∀ m j, ref.get? m = some j → x ∈ j.aliases → m = n) → ref.get? x = none → ¬ c!"must" <+: x →
      lib.get? x = some v → ∃ e, (register ref (aliasMap o₁) o₂).get? n = some e) := by
  obtain ⟨k1, k2⟩ := foldSet_get (fun e => (entryOf ref (aliasMap o₁) e).map (fun nf => (nf.1, Entry.direct nf.2))) o₂ [] n
  have hr : register ref (aliasMap o₁) o₂ =
      o₂.foldl (fun m e => putSome m ((entryOf ref (aliasMap o₁) e).map (fun nf => (nf.1, Entry.direct nf.2)))) [] := by
    unfold register
    congr 1
    funext m e
    cases entryOf ref (aliasMap o₁) e with
    | none => rfl
    | some nf => rfl
  rw [← hr] at k1 k2
  have hmem : ∀ x v, (x, v) ∈ o₂ ↔ lib.get? x = some v := fun x v => h₂.mem_iff.trans (GoMap.mem_iff_get? hs.libKeys)
  have hmem1 : ∀ x v, (x, v) ∈ o₁ ↔ ref.get? x = some v := fun x v => h₁.mem_iff.trans (GoMap.mem_iff_get? hs.refKeys)
  have hlook : ∀ x i, ref.get? x = some i → lookup ref x = i := fun x i h => by simp [lookup, h]
  have hlook' : ∀ x, ref.get? x = none → (lookup ref x).group = [] := fun x h => by simp [lookup, h]
  refine ⟨?_, ?_, ?_⟩
  · intro e he
    rcases k1 e he with ⟨⟨x, v⟩, hx, hg⟩ | h
    · obtain ⟨nf, hnf, hh⟩ := Option.map_eq_some_iff.1 hg
      cases hh
      have hl := (hmem x v).1 hx
      unfold entryOf at hnf
      cases hrx : ref.get? x with
      | some i =>
        have hg := (hs.groups x i hrx).1
        simp only [hlook x i hrx, hg, false_and, if_false] at hnf
        cases hnf
        exact ⟨i, v, x, hrx, hl, rfl, .inl rfl⟩
      | none =>
        simp only [hlook' x hrx, true_and, if_true] at hnf
        split at hnf
        · cases hnf
        · rename_i hmust
          split at hnf
          · cases hnf
          · rename_i hne
            cases hnf
            cases hal : (aliasMap o₁).get? x with
            | none => simp [hal] at hne
            | some m =>
              obtain ⟨i, hi, ha⟩ := (aliasMap_get o₁ x).1 m hal
              simp only [Option.getD_some]
              have hri := (hmem1 m i).1 hi
              refine ⟨i, v, x, hri, hl, ?_, .inr ⟨ha, hrx, hmust⟩⟩
              simp only [hlook m i hri]
    · cases h
  · intro i v hi hv
    apply Option.isSome_iff_exists.1
    apply k2
    refine .inr ⟨(n, v), (hmem n v).2 hv, .direct ⟨n, v, i.doc, [], i.aliases⟩, ?_⟩
    unfold entryOf
    simp only [hlook n i hi, (hs.groups n i hi).1, false_and, if_false]
    rfl
  · intro i v x hi ha honly hrx hmust hv
    apply Option.isSome_iff_exists.1
    apply k2
    refine .inr ⟨(x, v), (hmem x v).2 hv, .direct ⟨n, v, i.doc, [], i.aliases⟩, ?_⟩
    obtain ⟨m, hm⟩ := (aliasMap_get o₁ x).2 n i ((hmem1 n i).2 hi) ha
    obtain ⟨j, hj, hja⟩ := (aliasMap_get o₁ x).1 m hm
    have hmn := honly m j ((hmem1 m j).1 hj) hja
    subst hmn
    unfold entryOf
    simp only [hlook' x hrx, true_and, if_true, hm, Option.getD_some]
    rw [if_neg hmust, if_neg (hs.groups m i hi).2, hlook m i hi]
    rfl

theorem builds_brings {ref : GoMap Info} {lib : GoMap α} (hs : Sound ref lib) {fs : Table α} (hb : Builds ref lib fs) {n : Text} {as : List Text} {v : α}
    (ho : OneFunction (docOf ref) lib.get? n as v) {k : Text} (hk : k ∈ n :: as) : Brings (listing fs) k v := by
  obtain ⟨o₁, o₂, h₁, h₂, rfl⟩ := hb
  have get := fun x => register_get hs h₁ h₂ x
  obtain ⟨i, hi, rfl⟩ := Option.map_eq_some_iff.1 ho.listed
  have doc : ∀ m j, ref.get? m = some j → docOf ref m = some j.aliases := fun m j h => by simp [docOf, h]
  have main : ∀ w bs, listing (register ref (aliasMap o₁) o₂) n = some (w, bs) → w = v ∧ bs = i.aliases := by
    intro w bs h
    obtain ⟨e, he, hh⟩ := Option.map_eq_some_iff.1 h
    obtain ⟨j, u, x, hj, hl, rfl, hx⟩ := (get n).1 e he
    rw [hi] at hj
    cases hj
    cases hh
    refine ⟨ho.same x ?_ _ hl, rfl⟩
    rcases hx with rfl | hx
    · exact List.mem_cons_self ..
    · exact List.mem_cons_of_mem _ hx.1
  have other : ∀ m w bs, listing (register ref (aliasMap o₁) o₂) m = some (w, bs) → docOf ref m = some bs := by
    intro m w bs h
    obtain ⟨e, he, hh⟩ := Option.map_eq_some_iff.1 h
    obtain ⟨j, u, x, hj, _, rfl, _⟩ := (get m).1 e he
    cases hh
    exact doc m j hj
  have hside : ∀ m bs, docOf ref m = some bs → m ≠ n → m ≠ k ∧ k ∉ bs := by
    intro m bs hm hne
    obtain ⟨h1, h2, h3⟩ := ho.alone m bs hm hne
    rcases List.mem_cons.1 hk with rfl | hk
    · exact ⟨hne, h2⟩
    · exact ⟨fun h => h1 (h ▸ hk), h3 k hk⟩
  refine ⟨?_, ?_, ?_⟩
  · intro w bs h
    by_cases hkn : k = n
    · subst hkn
      exact (main w bs h).1
    · exact absurd rfl (hside k bs (other k w bs h) hkn).1
  · intro m w bs h ha
    by_cases hmn : m = n
    · subst hmn
      exact (main w bs h).1
    · exact absurd ha (hside m bs (other m w bs h) hmn).2
  · have there : ∃ e, (register ref (aliasMap o₁) o₂).get? n = some e := by
      obtain ⟨x, hx, hv, hm⟩ := ho.there
      rcases List.mem_cons.1 hx with rfl | hx
      · exact (get x).2.1 i v hi hv
      · by_cases hxn : x = n
        · subst hxn
          exact (get x).2.1 i v hi hv
        · refine (get n).2.2 i v x hi hx ?_ ?_ (fun h => hxn (hm h)) hv
          · intro m j hm hxj
            cases Classical.em (m = n) with
            | inl h => exact h
            | inr h => exact absurd hxj ((ho.alone m _ (doc m j hm) h).2.2 x hx)
          · cases hrx : ref.get? x with
            | none => rfl
            | some j => exact absurd hx (ho.alone x _ (doc x j hrx) hxn).1
    obtain ⟨e, he⟩ := there
    have hl : ∃ w bs, listing (register ref (aliasMap o₁) o₂) n = some (w, bs) := ⟨_, _, by unfold listing; rw [he]; rfl⟩
    rcases List.mem_cons.1 hk with rfl | hka
    · exact .inl hl
    · obtain ⟨w, bs, h⟩ := hl
      refine .inr ⟨n, w, bs, h, (main w bs h).2 ▸ hka, ?_⟩
      intro m u cs hm hn
      cases Classical.em (m = n) with
      | inl h => exact h
      | inr hne => exact absurd hn (ho.alone m cs (other m u cs hm) hne).2.1

theorem found_brings {ref : GoMap Info} {lib : GoMap α} (hs : Sound ref lib) {fs : Table α} (hb : Found ref lib fs) {n : Text} {as : List Text} {v : α}
    (ho : OneFunction (docOf ref) lib.get? n as v) {k : Text} (hk : k ∈ n :: as) : Brings (listing fs) k v := by
  induction hb with
  | built h => exact builds_brings hs h ho hk
  | used _ h ih => exact (runs_brings ih _ _ h).2

/-- **C107.** A documented name that stands for one function of the library designates it, and so do its aliases, in all the templates of a process. -/
theorem C107_names_partial (ref : GoMap Info) (lib : GoMap α) (hs : Sound ref lib) (n : Text) (as : List Text) (v : α)
    (ho : OneFunction (docOf ref) lib.get? n as v) (t r : Table α) (h : AddsSprig ref lib t r) (k : Text) (hk : k ∈ n :: as) :
    (r.get? k).map Entry.impl = some v := by
  obtain ⟨fs, hf, ha⟩ := h
  exact C51_name fs k v (found_brings hs hf ho hk) t r ha

theorem runs_inTable {m t : Table α} {s : Table α × Table α} (h : Runs m.keys (m, t) [] s) {k : Text} (hk : InTable s.1 k) : InTable m k := by
  have key : ∀ (s : Table α × Table α) V s', Runs m.keys s V s' → (∀ k e, s.1.get? k = some e → InTable m k) →
      (∀ k f, s.1.get? k = some (.direct f) → ∀ a ∈ f.aliases, InTable m a) →
      (∀ k e, s'.1.get? k = some e → InTable m k) ∧ (∀ k f, s'.1.get? k = some (.direct f) → ∀ a ∈ f.aliases, InTable m a) := by
    intro s V s' h
    induction h with
    | done => exact fun h1 h2 => ⟨h1, h2⟩
    | step _ _ _ ih =>
      intro h1 h2
      obtain ⟨k1, k2, _⟩ := visit_outside h1 h2
      exact ih k1 k2
  obtain ⟨h1, h2⟩ := key _ _ _ h (fun k e he => .inl ⟨e, he⟩) (fun n f hf a ha => .inr ⟨n, f, hf, ha⟩)
  rcases hk with ⟨e, he⟩ | ⟨n, f, hf, ha⟩
  · exact h1 k e he
  · exact h2 n f hf k ha

theorem found_inTable {ref : GoMap Info} {lib : GoMap α} (hs : Sound ref lib) {fs : Table α} (hb : Found ref lib fs) {k : Text} (hk : InTable fs k) :
    NamedBy (docOf ref) k := by
  induction hb with
  | built h =>
    obtain ⟨o₁, o₂, h₁, h₂, rfl⟩ := h
    rcases hk with ⟨e, he⟩ | ⟨n, f, hf, ha⟩
    · obtain ⟨i, _, _, hi, _⟩ := (register_get hs h₁ h₂ k).1 e he
      exact .inl ⟨i.aliases, by simp [docOf, hi]⟩
    · obtain ⟨i, _, _, hi, _, he, _⟩ := (register_get hs h₁ h₂ n).1 _ hf
      cases he
      exact .inr ⟨n, i.aliases, by simp [docOf, hi], ha⟩
  | used _ h ih => exact ih (runs_inTable h hk)

/-- **C107.** Names that are not documented, as a name or as an alias, are not given by the library. -/
theorem C107_others (ref : GoMap Info) (lib : GoMap α) (hs : Sound ref lib) (t r : Table α) (h : AddsSprig ref lib t r) (k : Text)
    (hk : ¬ NamedBy (docOf ref) k) : r.get? k = t.get? k := by
  obtain ⟨fs, hf, ha⟩ := h
  exact adds_outside ha (fun hi => hk (found_inTable hs hf hi))

/-! ## The documentation of the code -/

theorem sprigFuncRef_get (n : Text) : docOf sprigFuncRef n = GoMap.get? documented n := by
  unfold docOf sprigFuncRef
  generalize documented = d
  induction d with
  | nil => rfl
  | cons e d ih =>
    obtain ⟨m, as⟩ := e
    simp only [List.map_cons, GoMap.get?_cons]
    split
    · rfl
    · exact ih

theorem sprigFuncRef_wf : GoMap.WF sprigFuncRef := by
  have : (documented.map Prod.fst).Nodup := by decide +kernel
  unfold GoMap.WF GoMap.keys sprigFuncRef
  rw [List.map_map]
  exact this

theorem sprigFuncRef_sound {lib : GoMap α} (h : lib.WF) : Sound sprigFuncRef lib := by
  refine ⟨sprigFuncRef_wf, h, ?_⟩
  intro n i hi
  have hm := GoMap.mem_of_get? hi
  obtain ⟨e, he, hh⟩ := List.mem_map.1 hm
  cases hh
  refine ⟨by simp, ?_⟩
  have : ∀ e ∈ documented, e.1 ≠ [] := by decide +kernel
  exact this e he

/-- The names of the documentation, apart from two, share nothing. -/
theorem documented_alone : ∀ e ∈ documented, e.1 ≠ c!"all" → e.1 ≠ c!"withoutSprig" →
    ∀ d ∈ documented, d.1 ≠ e.1 → d.1 ∉ e.2 ∧ e.1 ∉ d.2 ∧ ∀ a ∈ e.2, a ∉ d.2 := by
  decide +kernel

theorem documented_must : ∀ e ∈ documented, ∀ a ∈ e.2, ¬ c!"must" <+: a := by decide +kernel

/-- **C107.** With the documentation of the code: every name of it, apart from `all` and `withoutSprig`, and each of its aliases, designates the
function `v` when `v` is what the library has under these names. -/
theorem C107_library_partial (lib : GoMap α) (hl : lib.WF) (n : Text) (as : List Text) (hn : (n, as) ∈ documented) (h1 : n ≠ c!"all")
    (h2 : n ≠ c!"withoutSprig") (v : α) (hsame : ∀ x ∈ n :: as, ∀ w, lib.get? x = some w → w = v) (hthere : ∃ x ∈ n :: as, lib.get? x = some v)
    (t r : Table α) (h : AddsSprig sprigFuncRef lib t r) (k : Text) (hk : k ∈ n :: as) : (r.get? k).map Entry.impl = some v := by
  have hw : GoMap.WF documented := by unfold GoMap.WF GoMap.keys; decide +kernel
  refine C107_names_partial sprigFuncRef lib (sprigFuncRef_sound hl) n as v ⟨?_, ?_, hsame, ?_⟩ t r h k hk
  · rw [sprigFuncRef_get]
    exact GoMap.get?_of_mem hw hn
  · intro m bs hm hne
    rw [sprigFuncRef_get] at hm
    exact documented_alone (n, as) hn h1 h2 (m, bs) (GoMap.mem_of_get? hm) hne
  · obtain ⟨x, hx, hv⟩ := hthere
    refine ⟨x, hx, hv, ?_⟩
    intro hm
    rcases List.mem_cons.1 hx with rfl | hx
    · rfl
    · exact absurd hm (documented_must (n, as) hn x hx)

/-- `max` and `biggest` of the library have one documented name; the iterations below are those of the order of the lists. -/
example : ∃ (lib : GoMap Nat) (r : Table Nat), lib.WF ∧ (c!"maxSprig", [c!"max", c!"biggest", c!"biggestSprig"]) ∈ documented ∧
    (∀ x ∈ [c!"maxSprig", c!"max", c!"biggest", c!"biggestSprig"], ∀ w, lib.get? x = some w → w = 1) ∧ lib.get? c!"max" = some 1 ∧
    AddsSprig sprigFuncRef lib [] r := by
  let lib : GoMap Nat := [(c!"max", 1), (c!"biggest", 1), (c!"min", 2)]
  let fs := register sprigFuncRef (aliasMap sprigFuncRef) lib
  refine ⟨lib, _, by unfold GoMap.WF GoMap.keys; decide, by decide +kernel, ?_, by decide, fs, .built ⟨_, _, .refl _, .refl _, rfl⟩,
    adds_list [] fs fs.keys (by decide +kernel) (fun _ => .rfl)⟩
  intro x hx w hw
  simp only [List.mem_cons, List.not_mem_nil, or_false] at hx
  rcases hx with rfl | rfl | rfl | rfl <;> first | (cases hw; rfl) | cases hw

/-- The part of the documentation and of the library about two names. -/
def allDoc : GoMap Info := [(c!"all", ⟨c!"Sprig", [], [c!"without"]⟩), (c!"withoutSprig", ⟨c!"Sprig", [], [c!"without"]⟩)]

/-- What the alias `without` of two names does: depending on the order of the iterations, `all` designates the function `all` of the library (1) or its
function `without` (2), and `without` and `withoutSprig` designate one function, the other or none. -/
theorem C107_not_all : ∃ r₁ r₂ r₃ : Table Nat, AddsSprig allDoc [(c!"all", 1), (c!"without", 2)] [] r₁ ∧
    AddsSprig allDoc [(c!"all", 1), (c!"without", 2)] [] r₂ ∧ AddsSprig allDoc [(c!"all", 1), (c!"without", 2)] [] r₃ ∧
    (r₁.get? c!"all").map Entry.impl = some 1 ∧ (r₁.get? c!"without").map Entry.impl = some 1 ∧ (r₁.get? c!"withoutSprig").map Entry.impl = some 2 ∧
    (r₂.get? c!"all").map Entry.impl = some 2 ∧ (r₂.get? c!"without").map Entry.impl = some 2 ∧ r₂.get? c!"withoutSprig" = none ∧
    (r₃.get? c!"all").map Entry.impl = some 1 ∧ (r₃.get? c!"without").map Entry.impl = some 2 ∧ (r₃.get? c!"withoutSprig").map Entry.impl = some 2 := by
  let lib : GoMap Nat := [(c!"all", 1), (c!"without", 2)]
  let fs := register allDoc (aliasMap allDoc) lib
  let fs' := register allDoc (aliasMap allDoc.reverse) lib
  refine ⟨_, _, _, ⟨fs, .built ⟨_, _, .refl _, .refl _, rfl⟩, adds_list [] fs fs.keys.reverse (by decide +kernel) (fun _ => List.mem_reverse)⟩,
    ⟨fs', .built ⟨_, _, List.reverse_perm _, .refl _, rfl⟩, adds_list [] fs' fs'.keys (by decide +kernel) (fun _ => .rfl)⟩,
    ⟨fs, .built ⟨_, _, .refl _, .refl _, rfl⟩, adds_list [] fs fs.keys (by decide +kernel) (fun _ => .rfl)⟩, ?_⟩
  decide +kernel

end Verif.Props
