import Verif.Props.FuncTable
/-!
# C51 for one name at a time
-/

namespace Verif.Props
open Verif FuncTable Spec

variable {α : Type}

/-- The functions and the aliases of a map of functions. -/
def listing (m : Table α) (n : Text) : Option (α × List Text) :=
  (m.get? n).map (fun e => match e with
    | .direct f => (f.impl, f.aliases)
    | .alias _ f => (f.impl, []))

/-- What holds of a map while it is used, for a name with one meaning. -/
structure BringsInv (m : Table α) (k : Text) (v : α) (s : Table α × Table α) (V : List Text) : Prop where
  named : ∀ e, s.1.get? k = some e → e.impl = v
  aliased : ∀ n f, s.1.get? n = some (.direct f) → k ∈ f.aliases → f.impl = v
  keep : ∀ n, m.has n = true → s.1.has n = true
  kept : s.1.has k = true → k ∈ V → (s.2.get? k).map Entry.impl = some v
  hidden : ∀ n, (∀ x u bs, listing m x = some (u, bs) → n ∈ bs → x = n) → ∀ f, m.get? n = some (.direct f) → n ∉ V →
    ∃ g, s.1.get? n = some (.direct g) ∧ g.aliases = f.aliases ∧ g.impl = f.impl
  reached : ∀ n f, (∀ x u bs, listing m x = some (u, bs) → n ∈ bs → x = n) → m.get? n = some (.direct f) → k ∈ f.aliases → n ∈ V →
    s.1.has k = true ∧ (s.2.get? k).map Entry.impl = some v
  origin : ∀ n f, s.1.get? n = some (.direct f) → ∃ g, m.get? n = some (.direct g) ∧ g.aliases = f.aliases

theorem visit_has (x k : Text) (s : Table α × Table α) (hx : s.1.has x = true) : (FuncTable.visit k s).1.has x = true := by
  unfold GoMap.has at *
  unfold FuncTable.visit
  split
  · exact hx
  · rw [(addAliases_get _ _ _ _).1]
    split
    · rfl
    · rw [GoMap.get?_set]
      split
      · rfl
      · exact hx
  · rw [GoMap.get?_set]
    split
    · rfl
    · exact hx

theorem BringsInv.visit {m : Table α} {k : Text} {v : α} {s : Table α × Table α} {V : List Text} (hi : BringsInv m k v s V) {key : Text}
    (hV : key ∉ V) (hk : s.1.has key = true) : BringsInv m k v (FuncTable.visit key s) (key :: V) := by
  obtain ⟨e, he⟩ := Option.isSome_iff_exists.1 hk
  cases e with
  | direct f =>
    obtain ⟨f₀, hf₀, hal⟩ := hi.origin key f he
    have hn' : key = k → f.impl = v := by
      rintro rfl
      exact hi.named (.direct f) he
    have hv : FuncTable.visit key s = addAliases (under key f) f.aliases (s.1.set key (.direct (under key f)), s.2.set key (.direct (under key f))) := by
      unfold FuncTable.visit
      rw [he]
      rfl
    have g1 : ∀ x, (FuncTable.visit key s).1.get? x =
        if x ∈ f.aliases then some (.alias x (under key f)) else if key = x then some (.direct (under key f)) else s.1.get? x := by
      intro x
      rw [hv, (addAliases_get _ _ _ _).1, GoMap.get?_set]
    have g2 : ∀ x, (FuncTable.visit key s).2.get? x =
        if x ∈ f.aliases then some (.alias x (under key f)) else if key = x then some (.direct (under key f)) else s.2.get? x := by
      intro x
      rw [hv, (addAliases_get _ _ _ _).2, GoMap.get?_set]
    have i2 : k ∈ f.aliases → ((FuncTable.visit key s).2.get? k).map Entry.impl = some v := by
      intro ha
      rw [g2, if_pos ha]
      exact congrArg some (hi.aliased key f he ha)
    refine ⟨?_, ?_, fun n hn => visit_has n key s (hi.keep n hn), ?_, ?_, ?_, ?_⟩
    · intro e hke
      rw [g1] at hke
      split at hke
      · rename_i h
        cases hke
        exact hi.aliased key f he h
      · split at hke
        · rename_i h
          cases hke
          subst h
          exact hn' rfl
        · exact hi.named _ hke
    · intro n g hg hkg
      rw [g1] at hg
      split at hg
      · cases hg
      · split at hg
        · cases hg
          exact hi.aliased key f he hkg
        · exact hi.aliased n g hg hkg
    · intro hh hkV
      by_cases ha : k ∈ f.aliases
      · exact i2 ha
      · rw [g2, if_neg ha]
        split
        · rename_i h
          subst h
          exact congrArg some (hn' rfl)
        · rename_i h
          refine hi.kept ?_ ((List.mem_cons.1 hkV).resolve_left (Ne.symm h))
          unfold GoMap.has at hh ⊢
          rw [g1, if_neg ha, if_neg h] at hh
          exact hh
    · intro n hn g hg hnV
      have hne : key ≠ n := fun h => hnV (by simp [h])
      have hna : n ∉ f.aliases := by
        intro h
        refine hne (hn key f₀.impl f₀.aliases ?_ (hal ▸ h))
        simp [listing, hf₀]
      obtain ⟨g', h1, h2, h3⟩ := hi.hidden n hn g hg (fun h => hnV (List.mem_cons_of_mem _ h))
      exact ⟨g', by rw [g1, if_neg hna, if_neg hne]; exact h1, h2, h3⟩
    · intro n g hn hg hkg hnV
      by_cases hne : n = key
      · subst hne
        obtain ⟨g', h1, h2, _⟩ := hi.hidden n hn g hg hV
        rw [he] at h1
        cases h1
        have ha : k ∈ f.aliases := h2 ▸ hkg
        refine ⟨?_, i2 ha⟩
        unfold GoMap.has
        rw [g1, if_pos ha]
        rfl
      · obtain ⟨h1, h2⟩ := hi.reached n g hn hg hkg ((List.mem_cons.1 hnV).resolve_left hne)
        refine ⟨visit_has _ _ _ h1, ?_⟩
        by_cases ha : k ∈ f.aliases
        · exact i2 ha
        · rw [g2, if_neg ha]
          split
          · rename_i h
            subst h
            exact congrArg some (hn' rfl)
          · exact h2
    · intro n g hg
      rw [g1] at hg
      split at hg
      · cases hg
      · split at hg
        · rename_i h
          subst h
          cases hg
          exact ⟨f₀, hf₀, hal⟩
        · exact hi.origin n g hg
  | alias nm f =>
    have hn' : key = k → f.impl = v := by
      rintro rfl
      exact hi.named (.alias nm f) he
    have hv : FuncTable.visit key s = (s.1.set key (.alias key f), s.2.set key (.alias key f)) := by
      unfold FuncTable.visit
      rw [he]
    have g1 : ∀ x, (FuncTable.visit key s).1.get? x = if key = x then some (.alias key f) else s.1.get? x := by
      intro x
      rw [hv, GoMap.get?_set]
    have g2 : ∀ x, (FuncTable.visit key s).2.get? x = if key = x then some (.alias key f) else s.2.get? x := by
      intro x
      rw [hv, GoMap.get?_set]
    refine ⟨?_, ?_, fun n hn => visit_has n key s (hi.keep n hn), ?_, ?_, ?_, ?_⟩
    · intro e hke
      rw [g1] at hke
      split at hke
      · rename_i h
        subst h
        cases hke
        exact hn' rfl
      · exact hi.named _ hke
    · intro n g hg hkg
      rw [g1] at hg
      split at hg
      · cases hg
      · exact hi.aliased n g hg hkg
    · intro hh hkV
      rw [g2]
      split
      · rename_i h
        subst h
        exact congrArg some (hn' rfl)
      · rename_i h
        refine hi.kept ?_ ((List.mem_cons.1 hkV).resolve_left (Ne.symm h))
        unfold GoMap.has at hh ⊢
        rw [g1, if_neg h] at hh
        exact hh
    · intro n hn g hg hnV
      have hne : key ≠ n := fun h => hnV (by simp [h])
      obtain ⟨g', h1, h2, h3⟩ := hi.hidden n hn g hg (fun h => hnV (List.mem_cons_of_mem _ h))
      exact ⟨g', by rw [g1, if_neg hne]; exact h1, h2, h3⟩
    · intro n g hn hg hkg hnV
      by_cases hne : n = key
      · subst hne
        obtain ⟨g', h1, _⟩ := hi.hidden n hn g hg hV
        rw [he] at h1
        cases h1
      · obtain ⟨h1, h2⟩ := hi.reached n g hn hg hkg ((List.mem_cons.1 hnV).resolve_left hne)
        refine ⟨visit_has _ _ _ h1, ?_⟩
        rw [g2]
        split
        · rename_i h
          subst h
          exact congrArg some (hn' rfl)
        · exact h2
    · intro n g hg
      rw [g1] at hg
      split at hg
      · cases hg
      · exact hi.origin n g hg

theorem listing_direct {m : Table α} {n : Text} {f : Func α} (h : m.get? n = some (.direct f)) : listing m n = some (f.impl, f.aliases) := by
  simp [listing, h]

theorem runs_brings {m : Table α} {k : Text} {v : α} (hb : Brings (listing m) k v) (t : Table α) (s : Table α × Table α)
    (h : Runs m.keys (m, t) [] s) : (s.2.get? k).map Entry.impl = some v ∧ Brings (listing s.1) k v := by
  have key : ∀ (s : Table α × Table α) V s', Runs m.keys s V s' → BringsInv m k v s V → ∃ V', (∀ x ∈ m.keys, x ∈ V') ∧ BringsInv m k v s' V' := by
    intro s V s' h
    induction h with
    | @done s V hV => exact fun hi => ⟨V, hV, hi⟩
    | step h1 h2 _ ih => exact fun hi => ih (hi.visit h1 h2)
  obtain ⟨V, hV, hi⟩ := key _ _ _ h {
    named := by
      intro e he
      cases e with
      | direct f => exact hb.named f.impl f.aliases (listing_direct he)
      | alias n f => exact hb.named f.impl [] (by simp [listing, he])
    aliased := fun n f hf ha => hb.aliased n f.impl f.aliases (listing_direct hf) ha
    keep := fun _ h => h
    kept := fun _ h => by simp at h
    hidden := fun n _ f hf _ => ⟨f, hf, rfl, rfl⟩
    reached := fun _ _ _ _ _ h => by simp at h
    origin := fun n f hf => ⟨f, hf, rfl⟩ }
  have hin : ∀ n, m.has n = true → n ∈ V := fun n hn => hV n (GoMap.mem_keys_iff.2 hn)
  have both : s.1.has k = true ∧ (s.2.get? k).map Entry.impl = some v := by
    rcases hb.found with ⟨w, as, hk⟩ | ⟨n, w, as, hn, hk, hal⟩
    · have hm : m.has k = true := by
        unfold listing at hk
        unfold GoMap.has
        cases hg : m.get? k with
        | none => simp [hg] at hk
        | some e => rfl
      exact ⟨hi.keep k hm, hi.kept (hi.keep k hm) (hin k hm)⟩
    · cases hg : m.get? n with
      | none => simp [listing, hg] at hn
      | some e =>
        cases e with
        | alias nm f =>
          simp [listing, hg] at hn
          rw [hn.2] at hk
          cases hk
        | direct f =>
          rw [listing_direct hg] at hn
          cases hn
          exact hi.reached n f hal hg hk (hin n (by unfold GoMap.has; rw [hg]; rfl))
  refine ⟨both.2, ?_, ?_, ?_⟩
  · intro w as hw
    unfold listing at hw
    cases hg : s.1.get? k with
    | none => simp [hg] at hw
    | some e =>
      have := hi.named e hg
      rw [hg] at hw
      cases e <;> simp [Entry.impl] at hw this <;> rw [← hw.1, this]
  · intro n w as hw ha
    unfold listing at hw
    cases hg : s.1.get? n with
    | none => simp [hg] at hw
    | some e =>
      rw [hg] at hw
      cases e with
      | alias nm f =>
        simp at hw
        rw [hw.2] at ha
        cases ha
      | direct f =>
        simp at hw
        rw [← hw.1]
        exact hi.aliased n f hg (hw.2 ▸ ha)
  · obtain ⟨e, he⟩ := Option.isSome_iff_exists.1 both.1
    refine .inl ?_
    unfold listing
    rw [he]
    exact ⟨_, _, rfl⟩

theorem iterates_runs {start : List Text} {s : Table α × Table α} {V : List Text} {r : Table α} (h : Iterates start s V r) :
    ∃ s', Runs start s V s' ∧ s'.2 = r := by
  induction h with
  | done h => exact ⟨_, .done h, rfl⟩
  | step h1 h2 _ ih =>
    obtain ⟨s', h3, h4⟩ := ih
    exact ⟨s', .step h1 h2 h3, h4⟩

/-- **C51.** For a name to which a map of functions gives one meaning, that is what the name designates once the map is added, whatever the order and
whatever conflicts there are between the other names. -/
theorem C51_name (m : Table α) (k : Text) (v : α) (hb : Brings (listing m) k v) (t r : Table α) (h : Adds t m r) :
    (r.get? k).map Entry.impl = some v := by
  obtain ⟨s, hs, rfl⟩ := iterates_runs h
  exact (runs_brings hb t s hs).1

end Verif.Props
