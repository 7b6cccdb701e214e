import Verif.Model.UserFunc
import Verif.Lemmas.Merge
import Verif.Lemmas.HeapOps
/-! # Lemmas about functions defined by templates -/

namespace Verif.UserFunc
open Verif Spec Text Value

theorem settingOf_iff {key : Text} {s : FuncSetting} : settingOf key = some s ↔ key ∈ (settingNames s).1 := by
  constructor
  · intro h
    unfold settingOf at h
    by_cases h1 : key = T "d" ∨ key = T "desc" ∨ key = T "description"
    · rw [if_pos h1] at h; cases h; simpa [settingNames] using h1
    rw [if_neg h1] at h
    by_cases h2 : key = T "g" ∨ key = T "group"
    · rw [if_pos h2] at h; cases h; simpa [settingNames] using h2
    rw [if_neg h2] at h
    by_cases h3 : key = T "a" ∨ key = T "args" ∨ key = T "arguments"
    · rw [if_pos h3] at h; cases h; simpa [settingNames] using h3
    rw [if_neg h3] at h
    by_cases h4 : key = T "aliases"
    · rw [if_pos h4] at h; cases h; simpa [settingNames] using h4
    rw [if_neg h4] at h
    by_cases h5 : key = T "def" ∨ key = T "default" ∨ key = T "defaults"
    · rw [if_pos h5] at h; cases h; simpa [settingNames] using h5
    rw [if_neg h5] at h; cases h
  · cases s <;> simp only [settingNames, List.mem_cons, List.not_mem_nil, or_false] <;> intro h <;>
      (first
        | (rcases h with rfl | rfl | rfl <;> decide)
        | (rcases h with rfl | rfl <;> decide)
        | (subst h; decide))

theorem settingKey_eq (s : FuncSetting) : settingKey s = (settingNames s).2 := by cases s <;> rfl

theorem accepts_iff (s : FuncSetting) (v : Value) : accepts s v = true ↔ GoodSetting s v := by
  cases s <;> cases v <;> simp [accepts, GoodSetting]

theorem key_names (s : FuncSetting) : (settingNames s).2 ∈ (settingNames s).1 := by cases s <;> decide

/-- What is known at any time of the loop. -/
structure Inv (lower : Text → Text) (config c : Dict) : Prop where
  old : ∀ q val, GoMap.get? c q = some val →
    ∃ k, GoMap.get? config k = some val ∧ (q = k ∨ ∃ s, NamesSetting lower k s ∧ q = (settingNames s).2)
  kept : ∀ k ∈ GoMap.keys config, GoMap.get? c k = GoMap.get? config k

theorem names_unique {lower : Text → Text} {k : Text} {s s' : FuncSetting} (h : NamesSetting lower k s) (h' : NamesSetting lower k s') : s = s' := by
  have h1 := settingOf_iff.2 h
  rw [settingOf_iff.2 h'] at h1
  cases h1; rfl

theorem names_key {lower : Text → Text} (hl : KeepsNames lower) (s : FuncSetting) : NamesSetting lower (settingNames s).2 s := by
  unfold NamesSetting; rw [hl s]; exact key_names s

/-- A visit that succeeds: nothing to visit, or a good value is stored under the name of its setting. -/
theorem visit_some {lower : Text → Text} {c c' : Dict} {q : Text} (h : visit lower c q = some c') :
    GoMap.get? c q = none ∧ c' = c ∨
    ∃ val s, GoMap.get? c q = some val ∧ NamesSetting lower q s ∧ GoodSetting s val ∧ c' = GoMap.set c (settingNames s).2 val := by
  unfold visit at h
  cases hq : GoMap.get? c q with
  | none => rw [hq] at h; simp at h; exact Or.inl ⟨rfl, h.symm⟩
  | some val =>
    rw [hq] at h
    simp only at h
    cases hs : settingOf (lower q) with
    | none => rw [hs] at h; simp at h
    | some s =>
      rw [hs] at h
      simp only at h
      split at h
      · rename_i ha
        simp only [Option.some.injEq] at h
        exact Or.inr ⟨val, s, rfl, settingOf_iff.1 hs, (accepts_iff s val).1 ha, by rw [← h, settingKey_eq]⟩
      · cases h

theorem Inv.step {lower : Text → Text} (hl : KeepsNames lower) {config c c' : Dict} (ho : GivenOnce lower config) (hi : Inv lower config c) {q : Text}
    (h : visit lower c q = some c') : Inv lower config c' := by
  rcases visit_some h with ⟨_, rfl⟩ | ⟨val, s, hq, hs, _, rfl⟩
  · exact hi
  · have hk : ∃ k, GoMap.get? config k = some val ∧ NamesSetting lower k s := by
      obtain ⟨k, hk, rfl | ⟨s', hs', rfl⟩⟩ := hi.old q val hq
      · exact ⟨q, hk, hs⟩
      · have := names_unique hs (names_key hl s')
        subst this; exact ⟨k, hk, hs'⟩
    obtain ⟨k, hk, hks⟩ := hk
    constructor
    · intro p w hp
      rw [GoMap.get?_set] at hp
      split at hp
      · rename_i he
        cases hp
        exact ⟨k, hk, Or.inr ⟨s, hks, he.symm⟩⟩
      · exact hi.old p w hp
    · intro p hp
      rw [GoMap.get?_set]
      split
      · rename_i he
        subst he
        have hkk : k ∈ GoMap.keys config := GoMap.mem_keys_iff.2 (by rw [hk]; rfl)
        have := ho k _ s hkk hp hks (names_key hl s)
        rw [← this, hk]
      · exact hi.kept p hp

theorem Inv.start (lower : Text → Text) (config : Dict) : Inv lower config config :=
  ⟨fun q _ h => ⟨q, h, Or.inl rfl⟩, fun _ _ => rfl⟩

theorem configure_cons {lower : Text → Text} {c c' : Dict} {q : Text} {order : List Text} (h : configure lower c (q :: order) = some c') :
    ∃ d, visit lower c q = some d ∧ configure lower d order = some c' := by
  simpa [configure, Option.bind_eq_some_iff] using h

theorem Inv.end {lower : Text → Text} (hl : KeepsNames lower) {config : Dict} (ho : GivenOnce lower config) (order : List Text) :
    ∀ {c c' : Dict}, Inv lower config c → configure lower c order = some c' → Inv lower config c' := by
  induction order with
  | nil => intro c c' hi h; simp [configure] at h; exact h ▸ hi
  | cons q order ih =>
    intro c c' hi h
    obtain ⟨d, h1, h2⟩ := configure_cons h
    exact ih (hi.step hl ho h1) h2

theorem visit_stays {lower : Text → Text} {c c' : Dict} {q p : Text} (h : visit lower c q = some c') (hp : (GoMap.get? c p).isSome) :
    (GoMap.get? c' p).isSome := by
  rcases visit_some h with ⟨_, rfl⟩ | ⟨val, s, _, _, _, rfl⟩
  · exact hp
  · rw [GoMap.get?_set]; split
    · rfl
    · exact hp

theorem configure_stays {lower : Text → Text} (order : List Text) :
    ∀ {c c' : Dict} {p : Text}, configure lower c order = some c' → (GoMap.get? c p).isSome → (GoMap.get? c' p).isSome := by
  induction order with
  | nil => intro c c' p h; simp [configure] at h; exact h ▸ id
  | cons q order ih =>
    intro c c' p h hp
    obtain ⟨d, h1, h2⟩ := configure_cons h
    exact ih h2 (visit_stays h1 hp)

/-- Every key that is visited names a setting, whose value is good, and which is found afterwards. -/
theorem configure_visited {lower : Text → Text} (hl : KeepsNames lower) {config : Dict} (ho : GivenOnce lower config) (order : List Text) :
    ∀ {c c' : Dict}, Inv lower config c → configure lower c order = some c' → ∀ k ∈ order, ∀ v, GoMap.get? config k = some v →
      ∃ s, NamesSetting lower k s ∧ GoodSetting s v ∧ (GoMap.get? c' (settingNames s).2).isSome := by
  induction order with
  | nil => intro c c' _ _ k hk; simp at hk
  | cons q order ih =>
    intro c c' hi h k hk v hv
    obtain ⟨d, h1, h2⟩ := configure_cons h
    rcases List.mem_cons.1 hk with rfl | hk
    · have hkk : k ∈ GoMap.keys config := GoMap.mem_keys_iff.2 (by rw [hv]; rfl)
      have hc := hi.kept k hkk
      rw [hv] at hc
      rcases visit_some h1 with ⟨hn, _⟩ | ⟨val, s, hq, hs, hg, rfl⟩
      · rw [hn] at hc; cases hc
      · rw [hc] at hq; cases hq
        exact ⟨s, hs, hg, configure_stays order h2 (by rw [GoMap.get?_set, if_pos rfl]; rfl)⟩
    · exact ih (hi.step hl ho h1) h2 k hk v hv

/-- Nothing fails if all is good. -/
theorem configure_good {lower : Text → Text} (hl : KeepsNames lower) {config : Dict} (ho : GivenOnce lower config)
    (hg : ∀ k v, GoMap.get? config k = some v → ∃ s, NamesSetting lower k s ∧ GoodSetting s v) (order : List Text) :
    ∀ {c : Dict}, Inv lower config c → ∃ c', configure lower c order = some c' := by
  induction order with
  | nil => intro c _; exact ⟨c, rfl⟩
  | cons q order ih =>
    intro c hi
    have : ∃ d, visit lower c q = some d := by
      unfold visit
      cases hq : GoMap.get? c q with
      | none => exact ⟨c, rfl⟩
      | some val =>
        obtain ⟨k, hk, hkq⟩ := hi.old q val hq
        obtain ⟨s, hs, hgood⟩ := hg k val hk
        have hqs : NamesSetting lower q s := by
          rcases hkq with rfl | ⟨s', hs', rfl⟩
          · exact hs
          · have := names_unique hs hs'
            subst this; exact names_key hl s
        simp only
        rw [settingOf_iff.2 hqs]
        simp only
        rw [if_pos ((accepts_iff s val).2 hgood)]
        exact ⟨_, rfl⟩
    obtain ⟨d, hd⟩ := this
    obtain ⟨c', hc'⟩ := ih (hi.step hl ho hd)
    exact ⟨c', by simp [configure, hd, hc']⟩

theorem argNames_some : ∀ {l : List Text}, (∀ a ∈ l, fields a ≠ []) → argNames l = some (l.filterMap (fun a => (fields a).head?)) := by
  intro l
  induction l with
  | nil => intro _; rfl
  | cons a l ih =>
    intro h
    have ha := h a (by simp)
    cases hf : fields a with
    | nil => exact absurd hf ha
    | cons w ws =>
      simp only [argNames, hf]
      rw [ih (fun x hx => h x (by simp [hx]))]
      simp [hf]

theorem argNames_none : ∀ {l : List Text} {a : Text}, a ∈ l → fields a = [] → argNames l = none := by
  intro l
  induction l with
  | nil => intro a h; simp at h
  | cons b l ih =>
    intro a h hf
    rcases List.mem_cons.1 h with rfl | h
    · simp [argNames, hf]
    · simp only [argNames]
      split
      · rfl
      · rw [ih h hf]; rfl

/-! ## Binding -/

theorem get?_bindPositions_other (k : Text) : ∀ (names : List Text) (args : List Value) (d : Dict),
    k ∉ names.take args.length → (k ≠ T "ARGS" ∨ args.length ≤ names.length) →
    GoMap.get? (bindPositions names args d) k = GoMap.get? d k := by
  intro names
  induction names with
  | nil =>
    intro args d _ hk
    cases args with
    | nil => rfl
    | cons a args =>
      simp only [bindPositions, GoMap.get?_set]
      rw [if_neg]
      rintro rfl
      rcases hk with hk | hk
      · exact hk rfl
      · simp at hk
  | cons n names ih =>
    intro args d hn hk
    cases args with
    | nil => rfl
    | cons a args =>
      simp only [bindPositions]
      simp only [List.length_cons, List.take_succ_cons, List.mem_cons, not_or] at hn
      rw [ih args _ hn.2 (by simpa using hk), GoMap.get?_set, if_neg (fun h => hn.1 h.symm)]

theorem get?_bindPositions_name : ∀ (names : List Text) (args : List Value) (d : Dict) (i : Nat) (name : Text) (a : Value),
    names.Nodup → (T "ARGS" ∉ names ∨ args.length ≤ names.length) → names[i]? = some name → args[i]? = some a →
    GoMap.get? (bindPositions names args d) name = some a := by
  intro names
  induction names with
  | nil => intro args d i name a _ _ h; simp at h
  | cons n names ih =>
    intro args d i name a hn hA hi ha
    cases args with
    | nil => simp at ha
    | cons b args =>
      simp only [bindPositions]
      rw [List.nodup_cons] at hn
      cases i with
      | zero =>
        simp only [List.getElem?_cons_zero, Option.some.injEq] at hi ha
        subst hi; subst ha
        rw [get?_bindPositions_other, GoMap.get?_set, if_pos rfl]
        · exact fun h => hn.1 (List.mem_of_mem_take h)
        · rcases hA with h | h
          · exact Or.inl (fun e => h (by simp [e]))
          · exact Or.inr (by simpa using h)
      | succ i =>
        exact ih args _ i name a hn.2 (hA.imp (fun h hm => h (by simp [hm])) (by simp)) (by simpa using hi) (by simpa using ha)

theorem get?_bindPositions_rest : ∀ (names : List Text) (args : List Value) (d : Dict), names.length < args.length →
    GoMap.get? (bindPositions names args d) (T "ARGS") = some (.list (args.drop names.length)) := by
  intro names
  induction names with
  | nil =>
    intro args d h
    cases args with
    | nil => simp at h
    | cons a args => simp [bindPositions, GoMap.get?_set]
  | cons n names ih =>
    intro args d h
    cases args with
    | nil => simp at h
    | cons a args => simp only [bindPositions]; rw [ih args _ (by simpa using h)]; simp

/-! ## On the heap -/

open HeapOps

theorem mergeLoop_apart {rec : Heap → Nat → Nat → Option Heap} {t s : Nat} (hne : s ≠ t) :
    ∀ (ks : List Text) (g g' : Heap), ks.Nodup → (∀ k ∈ ks, ∀ b b', entry g t k = some (.dict b) → entry g s k ≠ some (.dict b')) →
      mergeLoop rec t s ks g = some g' →
      (∀ a, a ≠ t → g'[a]? = g[a]?) ∧ g'.length = g.length ∧
      ∀ k b, entry g' t k = some (.dict b) → entry g t k = some (.dict b) ∨ entry g s k = some (.dict b) := by
  intro ks
  induction ks with
  | nil =>
    intro g g' _ _ hl
    simp only [mergeLoop, Option.some.injEq] at hl; subst hl
    exact ⟨fun _ _ => rfl, rfl, fun _ _ h => Or.inl h⟩
  | cons k ks ih =>
    intro g g' hn hf hl
    rw [List.nodup_cons] at hn
    simp only [mergeLoop, Option.bind_eq_some_iff] at hl
    obtain ⟨g1, h1, h2⟩ := hl
    have key : g1 = g ∨ ∃ sv, entry g s k = some sv ∧ entry g t k = none ∧ g1 = setKey g t k sv := by
      unfold mergeKey at h1
      split at h1
      · simp only [Option.some.injEq] at h1; exact Or.inl h1.symm
      · rename_i sv hsv
        split at h1
        · rename_i htn
          simp only [Option.some.injEq] at h1; exact Or.inr ⟨sv, hsv, htn, h1.symm⟩
        · rename_i tv htv
          split at h1
          · exact absurd hsv (hf k (by simp) _ _ htv)
          · simp only [Option.some.injEq] at h1; exact Or.inl h1.symm
    rcases key with rfl | ⟨sv, hsv, htn, rfl⟩
    · exact ih g1 g' hn.2 (fun k' hk' => hf k' (by simp [hk'])) h2
    · have he : ∀ k' b, entry (setKey g t k sv) t k' = some (.dict b) → entry g t k' = some (.dict b) ∨ (k' = k ∧ entry g s k' = some (.dict b)) := by
        intro k' b hb
        cases hm : g[t]? with
        | none => simp [setKey, hm] at hb; exact Or.inl hb
        | some cell =>
          cases cell with
          | arr l => simp [setKey, hm] at hb; exact Or.inl hb
          | dict m =>
            rw [entry_of (setKey_self k sv hm), GoMap.get?_set] at hb
            split at hb
            · rename_i hkk; subst hkk; exact Or.inr ⟨rfl, by rw [hsv, ← hb]⟩
            · exact Or.inl (by rw [entry_of hm]; exact hb)
      have hs : ∀ k', entry (setKey g t k sv) s k' = entry g s k' := fun k' => entry_agree (setKey_ne _ _ _ _ _ hne) k'
      obtain ⟨r1, r2, r3⟩ := ih _ g' hn.2 (fun k' hk' b b' hb => by
        rw [hs]
        rcases he k' b hb with h | ⟨rfl, _⟩
        · exact hf k' (by simp [hk']) b b' h
        · exact absurd hk' hn.1) h2
      refine ⟨fun a ha => by rw [r1 a ha, setKey_ne _ _ _ _ _ ha], by rw [r2, length_setKey], fun k' b hb => ?_⟩
      rcases r3 k' b hb with h | h
      · rcases he k' b h with h | ⟨_, h⟩
        · exact Or.inl h
        · exact Or.inr h
      · rw [hs] at h; exact Or.inr h

/-- If no key leads to dictionaries in two of the dictionaries, only the target is modified by a merge. -/
theorem merge_apart {n : Nat} {t : Nat} (ss : List Nat) : ∀ {h h' : Heap}, (∀ s ∈ ss, s ≠ t) →
    (∀ s ∈ ss, ∀ m, h[s]? = some (.dict m) → m.WF) →
    (t :: ss).Pairwise (fun x y => ∀ k b b', entry h x k = some (.dict b) → entry h y k ≠ some (.dict b')) →
    merge n h t ss = some h' → (∀ a, a ≠ t → h'[a]? = h[a]?) ∧ h'.length = h.length := by
  induction ss with
  | nil => intro h h' _ _ _ hm; simp only [merge, Option.some.injEq] at hm; subst hm; exact ⟨fun _ _ => rfl, rfl⟩
  | cons s ss ih =>
    intro h h' hne hw hp hm
    simp only [merge, Option.bind_eq_some_iff] at hm
    obtain ⟨h1, hd, hm⟩ := hm
    have hst : s ≠ t := hne s (by simp)
    rw [List.pairwise_cons, List.pairwise_cons] at hp
    obtain ⟨hp1, hp2, hp3⟩ := hp
    cases n with
    | zero => simp [deepMerge] at hd
    | succ n =>
      simp only [deepMerge, Option.bind_eq_some_iff] at hd
      obtain ⟨keys, hk, hl⟩ := hd
      have hnd : keys.Nodup := by
        simp only [mapKeys] at hk
        split at hk
        · rename_i m hm; simp only [Option.some.injEq] at hk; subst hk; exact hw s (by simp) m hm
        · cases hk
      obtain ⟨r1, r2, r3⟩ := mergeLoop_apart hst keys h h1 hnd (fun k _ b b' hb => hp1 s (by simp) k b b' hb) hl
      have hag : ∀ x ∈ ss, ∀ k, entry h1 x k = entry h x k := fun x hx k => entry_agree (r1 x (hne x (by simp [hx]))) k
      obtain ⟨q1, q2⟩ := ih (h := h1) (fun x hx => hne x (by simp [hx])) (fun x hx m hm => hw x (by simp [hx]) m (by rw [← r1 x (hne x (by simp [hx]))]; exact hm))
        (by
          rw [List.pairwise_cons]
          refine ⟨fun y hy k b b' hb => ?_, hp3.imp_of_mem (fun {x y} hx hy hxy k b b' hb => ?_)⟩
          · rw [hag y hy]
            rcases r3 k b hb with hb | hb
            · exact hp1 y (by simp [hy]) k b b' hb
            · exact hp2 y hy k b b' hb
          · rw [hag y hy]; rw [hag x hx] at hb; exact hxy k b b' hb) hm
      exact ⟨fun a ha => by rw [q1 a ha, r1 a ha], by rw [q2, r2]⟩

theorem setPositions_below (target : Nat) : ∀ (names : List Text) (args : List HVal) (h : Heap) (a : Nat), a < h.length → a ≠ target →
    (setPositions target names args h)[a]? = h[a]? := by
  intro names
  induction names with
  | nil =>
    intro args h a ha hne
    cases args with
    | nil => rfl
    | cons x args => simp only [setPositions]; rw [setKey_ne _ _ _ _ _ hne, List.getElem?_append_left ha]
  | cons n names ih =>
    intro args h a ha hne
    cases args with
    | nil => rfl
    | cons x args => simp only [setPositions]; rw [ih args _ a (by rw [length_setKey]; exact ha) hne, setKey_ne _ _ _ _ _ hne]

end Verif.UserFunc
