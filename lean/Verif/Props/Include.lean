import Verif.Lemmas.Include
import Verif.Spec.IncludeSpec
import Verif.Lemmas.Content2
/-!
# C50: sub-templates and the context of their caller
-/

namespace Verif.Props
open Verif Spec HeapOps Text Include Lemmas

theorem attempt_cases {n : Nat} {env : Env} {w : Bool} {source : Text} {args : List HVal} {s : State} {z : Reply × Option Text × State}
    (h : attempt n env w source args s = some z) :
    ∃ p q, startContext n env w s = some p ∧ bindArgs n p.1 p.2 args = some q ∧ execute env w source q.2 s.context ⟨q.1, p.2⟩ = z := by
  simp only [attempt, Option.bind_eq_some_iff, Option.map_eq_some_iff] at h
  obtain ⟨p, hp, q, hq, h⟩ := h
  exact ⟨p, q, hp, hq, h⟩

theorem execute_context (env : Env) (w : Bool) (source : Text) (dot caller : Nat) (s : State) : (execute env w source dot caller s).2.2.context = caller := by
  unfold execute
  split
  · rfl
  · split <;> rfl

theorem runTemplate_cases {n : Nat} {env : Env} {source : Text} {args : List HVal} {s s' : State} {r : Reply}
    (h : runTemplate n env source args s = some (r, s')) :
    (s' = s ∧ r = .text [] [] ∧ source = []) ∨ (∃ o, attempt n env false source args s = some (r, o, s') ∧ o = none) ∨
    (∃ r' source', attempt n env false source args s = some (r', some source', s') ∧ source' = []) ∨
    ∃ r' source' s1 o, attempt n env false source args s = some (r', some source', s1) ∧ attempt n env true source' args s1 = some (r, o, s') := by
  unfold runTemplate at h
  split at h
  · rename_i h0
    simp only [Option.some.injEq, Prod.mk.injEq] at h
    exact .inl ⟨h.2.symm, h.1.symm, h0⟩
  · split at h
    · simp at h
    · rename_i r' source' s1 h1
      split at h
      · rename_i h0
        simp only [Option.some.injEq, Prod.mk.injEq] at h
        exact .inr (.inr (.inl ⟨r', source', by rw [h1, h.2], h0⟩))
      · simp only [Option.map_eq_some_iff, Prod.mk.injEq] at h
        obtain ⟨⟨r2, o, s2⟩, h2, h3, h4⟩ := h
        exact .inr (.inr (.inr ⟨r', source', s1, o, h1, by rw [h2, ← h3, ← h4]⟩))
    · rename_i h1
      simp only [Option.some.injEq, Prod.mk.injEq] at h
      exact .inr (.inl ⟨none, by rw [h1, h.1, h.2], rfl⟩)

theorem attempt_context {n : Nat} {env : Env} {w : Bool} {source : Text} {args : List HVal} {s s' : State} {r : Reply} {o : Option Text}
    (h : attempt n env w source args s = some (r, o, s')) : s'.context = s.context := by
  obtain ⟨p, q, _, _, h⟩ := attempt_cases h
  have := execute_context env w source q.2 s.context ⟨q.1, p.2⟩
  rw [h] at this; exact this

/-- However a sub-template ends (result, error of parsing or of execution, panic), whatever it does to the current context, the context of the
template is afterwards the one of the caller. -/
theorem C50_restored (n : Nat) (env : Env) (source : Text) (args : List HVal) (s s' : State) (r : Reply)
    (h : runTemplate n env source args s = some (r, s')) : s'.context = s.context := by
  rcases runTemplate_cases h with ⟨h, _⟩ | ⟨o, h, _⟩ | ⟨r', src, h, _⟩ | ⟨r', src, s1, o, h1, h2⟩
  · rw [h]
  · exact attempt_context h
  · exact attempt_context h
  · rw [attempt_context h2, attempt_context h1]

/-- The templates only modify what is created for them or by them: given a context whose address is not below `N`, they modify no dictionary or list
whose address is below `N`. -/
def Discreet (env : Env) (N : Nat) : Prop :=
  ∀ src t, env.find src = .ok t → ∀ b dot st e st', N ≤ dot → N ≤ st.context → N ≤ st.heap.length → t.exec b dot st = (e, st') →
    ∀ a, a < N → st'.heap[a]? = st.heap[a]?

theorem execute_kept {env : Env} {w : Bool} {source : Text} {dot caller N : Nat} {s : State} (hd : Discreet env N) (h1 : N ≤ dot)
    (h2 : N ≤ s.context) (h3 : N ≤ s.heap.length) : ∀ a, a < N → (execute env w source dot caller s).2.2.heap[a]? = s.heap[a]? := by
  intro a ha
  unfold execute
  split
  · rfl
  · rename_i t ht
    split <;> rename_i hx <;> exact hd _ _ ht _ _ _ _ _ h1 h2 h3 hx a ha

theorem startContext_kept {n : Nat} {env : Env} {w : Bool} {s : State} {p : Heap × Nat} (hc : s.context < s.heap.length)
    (h : startContext n env w s = some p) : p.2 = s.heap.length ∧ s.heap.length ≤ p.1.length ∧ ∀ a, a < s.heap.length → p.1[a]? = s.heap[a]? := by
  unfold startContext at h
  split at h
  · simp only [fullContext, Option.map_eq_some_iff] at h
    obtain ⟨⟨g, c'⟩, hcl, rfl⟩ := h
    have := cloneDict_new hcl
    have hf := cloneDict_frame _ _ _ _ _ hcl
    refine ⟨this, by rw [length_setKey]; exact hf.1, fun a ha => ?_⟩
    simp only
    rw [setKey_ne _ _ _ _ _ (by omega), hf.2 a ha]
  · simp only [Option.some.injEq] at h
    obtain ⟨q1, q2, q3, _⟩ := smallContext_spec env.constants hc
    rw [h] at q1 q2 q3
    exact ⟨q1, by omega, q3⟩

theorem attempt_kept {n : Nat} {env : Env} {w : Bool} {source : Text} {args : List HVal} {s s' : State} {r : Reply} {o : Option Text} {N : Nat}
    (hargs : ∀ a, args ≠ [.dict a]) (hd : Discreet env N) (hN : N ≤ s.heap.length) (hc : s.context < s.heap.length)
    (h : attempt n env w source args s = some (r, o, s')) : ∀ a, a < N → s'.heap[a]? = s.heap[a]? := by
  obtain ⟨p, q, hp, hq, h⟩ := attempt_cases h
  obtain ⟨k1, k2, k3⟩ := startContext_kept hc hp
  intro a ha
  unfold bindArgs at hq
  split at hq
  · exact absurd rfl (hargs _)
  · simp only [Option.some.injEq] at hq
    have := execute_kept (w := w) (source := source) (dot := q.2) (caller := s.context) (s := ⟨q.1, p.2⟩) hd (by rw [← hq]; simp only; omega)
      (by simp only; omega) (by rw [← hq]; simp only [length_setKey, List.length_append]; omega) a ha
    rw [h] at this
    rw [this, ← hq]
    simp only
    rw [setKey_ne _ _ _ _ _ (by omega), List.getElem?_append_left (by omega), k3 a (by omega)]

/-- Unless the only argument is a dictionary, a sub-template that modifies only what it creates leaves every existing value as it is: the
context of the caller, its arguments, and everything else. What is missing in the full statement: a dictionary given as argument is modified
(`C50_not_argument`), and a sub-template can modify the context of its caller (`C50_not_isolated`). -/
theorem C50_kept_partial (n : Nat) (env : Env) (source : Text) (args : List HVal) (s s' : State) (r : Reply) (hargs : ∀ a, args ≠ [.dict a])
    (hd : Discreet env s.heap.length) (hc : s.context < s.heap.length) (h : runTemplate n env source args s = some (r, s')) :
    ∀ v, Within s.heap (· < s.heap.length) v → SameContents s.heap v s'.heap v := by
  intro v hv
  refine same_agree hv ?_
  rcases runTemplate_cases h with ⟨h, _⟩ | ⟨o, h, _⟩ | ⟨r', src, h, _⟩ | ⟨r', src, s1, o, h1, h2⟩
  · rw [h]; exact fun _ _ => rfl
  · exact attempt_kept hargs hd (Nat.le_refl _) hc h
  · exact attempt_kept hargs hd (Nat.le_refl _) hc h
  · have k1 := attempt_kept hargs hd (Nat.le_refl _) hc h1
    have hlen : s.heap.length ≤ s1.heap.length := by
      have := k1 (s.heap.length - 1) (by omega)
      rw [List.getElem?_eq_getElem (l := s.heap) (by omega)] at this
      have := (List.getElem?_eq_some_iff.1 this).1
      omega
    have k2 := attempt_kept hargs hd hlen (by rw [attempt_context h1]; omega) h2
    exact fun a ha => (k2 a ha).trans (k1 a ha)

/-- The same for an empty template, whatever it is given. -/
theorem C50_empty (n : Nat) (env : Env) (args : List HVal) (s : State) : runTemplate n env [] args s = some (.text [] [], s) := rfl

theorem bindArgs_first (n : Nat) (constants : List Text) (args : List HVal) (s : State) (hc : s.context < s.heap.length) (hargs : ∀ a, args ≠ [.dict a]) :
    ∃ h, bindArgs n (smallContext constants s).1 (smallContext constants s).2 args = some (h, s.heap.length) ∧
      (∃ a, child h (.dict s.heap.length) (.key (T "ARGS")) = some (.list a) ∧ h[a]? = some (.arr args)) ∧
      ∀ k, k ≠ T "ARGS" → child h (.dict s.heap.length) (.key k) =
        if k = T "_" then some (.dict s.context)
        else if k ∈ constants then some ((child s.heap (.dict s.context) (.key k)).getD (.atom .nil)) else none := by
  obtain ⟨q1, q2, q3, m, q4, _, q5⟩ := smallContext_spec constants hc
  rcases hsm : smallContext constants s with ⟨g, c⟩
  rw [hsm] at q1 q2 q4
  simp only at q1 q2 q4
  subst q1
  have hm : (g ++ [Cell.arr args])[s.heap.length]? = some (.dict m) := by rw [List.getElem?_append_left (by omega)]; exact q4
  refine ⟨setKey (g ++ [.arr args]) s.heap.length (T "ARGS") (.list g.length), ?_, ⟨g.length, ?_, ?_⟩, fun k hk => ?_⟩
  · unfold bindArgs
    split
    · exact absurd rfl (hargs _)
    · rfl
  · show entry _ _ _ = _
    rw [entry_of (setKey_self _ _ hm), GoMap.get?_set, if_pos rfl]
  · rw [setKey_ne _ _ _ _ _ (by omega)]; simp
  · show entry _ _ _ = _
    rw [entry_of (setKey_self _ _ hm), GoMap.get?_set, if_neg (Ne.symm hk), q5]
    rfl

theorem bindArgs_dict (n : Nat) (constants : List Text) (a : Nat) (m : GoMap HVal) (s : State) (hc : s.context < s.heap.length)
    (ha : s.heap[a]? = some (.dict m)) (hd : ∀ k x, m.get? k = some (.dict x) → k ∉ constants ∧ k ≠ T "_") :
    ∃ h, bindArgs (n + 1) (smallContext constants s).1 (smallContext constants s).2 [.dict a] = some (h, a) ∧
      (∀ b, b < s.heap.length → b ≠ a → h[b]? = s.heap[b]?) ∧
      ∀ k, child h (.dict a) (.key k) = (child s.heap (.dict a) (.key k)).or
        (if k = T "_" then some (.dict s.context)
         else if k ∈ constants then some ((child s.heap (.dict s.context) (.key k)).getD (.atom .nil)) else none) := by
  obtain ⟨q1, q2, q3, ms, q4, q5, q6⟩ := smallContext_spec constants hc
  rcases hsm : smallContext constants s with ⟨g, c⟩
  rw [hsm] at q1 q2 q3 q4
  simp only at q1 q2 q3 q4
  subst q1
  have hal : a < s.heap.length := (List.getElem?_eq_some_iff.1 ha).1
  have hm : g[a]? = some (.dict m) := by rw [q3 a hal]; exact ha
  obtain ⟨h, m', r1, r2, r3, r4, r5⟩ := merge_plain (n := n) (h := g) (t := a) (s := s.heap.length) (by omega) hm q4 q5 (fun k v x hk hx => by
    obtain ⟨d1, d2⟩ := hd k x hx
    rw [q6, if_neg d2, if_neg d1] at hk
    cases hk)
  refine ⟨h, by simp [bindArgs, r1], fun b hb hne => by rw [r3 b hne, q3 b hb], fun k => ?_⟩
  show entry h a k = _
  rw [entry_of r4, r5, q6]
  have : child s.heap (.dict a) (.key k) = m.get? k := entry_of ha k
  rw [this]
  rfl

/-- The environments of the examples: a single template, with a given execution. -/
def single (constants : List Text) (exec : Bool → Nat → State → Ending × State) : Env where
  find := fun src => .ok ⟨src, [], exec⟩
  constants := constants
  acceptNoValue := false

theorem run_retry (n : Nat) (env : Env) (source : Text) (args : List HVal) (s s1 : State) (r : Reply) (t : Found) (out e : Text) (p q : Heap × Nat) (st : State)
    (hs : source ≠ []) (hf : env.find source = .ok t) (ht : t.source ≠ []) (hp : startContext n env false s = some p) (hq : bindArgs n p.1 p.2 args = some q)
    (hx : t.exec true q.2 ⟨q.1, p.2⟩ = (.failed out e, st))
    (h : runTemplate n env source args s = some (r, s1)) : ∃ o, attempt n env true t.source args ⟨st.heap, s.context⟩ = some (r, o, s1) := by
  have h1 : attempt n env false source args s = some (.error e, some t.source, ⟨st.heap, s.context⟩) := by
    simp [attempt, hp, hq, execute, hf, hx]
  rcases runTemplate_cases h with ⟨_, _, h⟩ | ⟨o, h, ho⟩ | ⟨r', src, h, h0⟩ | ⟨r', src, s2, o, h2, h3⟩
  · exact absurd h hs
  · subst ho; rw [h1] at h; simp at h
  · rw [h1] at h
    simp only [Option.some.injEq, Prod.mk.injEq] at h
    exact absurd (h.2.1.trans h0) ht
  · rw [h1] at h2
    simp only [Option.some.injEq, Prod.mk.injEq] at h2
    obtain ⟨_, rfl, rfl⟩ := h2
    exact ⟨o, h3⟩

theorem conclude_reported (accept : Bool) (t : Found) (out : Text) : Reported accept t (.done out) (conclude accept t.source t.file out) := by
  have hl : (if out ≠ t.source then [] else t.file) = (if out = t.source then t.file else []) := by by_cases h : out = t.source <;> simp [h]
  have hd := detect_iff out
  cases accept with
  | true =>
    have : conclude true t.source t.file out = .text out (if out = t.source then t.file else []) := by
      simp only [conclude, if_true, Bool.not_true, Bool.false_and, Bool.false_eq_true, if_false, hl]
    rw [this]
    exact .text out (.inl rfl)
  | false =>
    by_cases hc : T "<no value>" <:+: out ∨ T "<nil>" <:+: out
    · have : conclude false t.source t.file out = .error Content.noValueError := by
        simp only [conclude, Bool.false_eq_true, if_false, Bool.not_false, Bool.true_and, hd.2 hc, if_true]
      rw [this]
      exact .undefined out _ rfl hc
    · have hc' : contains Content.noValue (replaceAll Content.nilValue Content.noValue out) = false := by
        cases hb : contains Content.noValue (replaceAll Content.nilValue Content.noValue out) with
        | true => exact absurd (hd.1 hb) hc
        | false => rfl
      have hn : ¬ T "<no value>" <:+: out ∧ ¬ T "<nil>" <:+: out := ⟨fun h => hc (.inl h), fun h => hc (.inr h)⟩
      have : conclude false t.source t.file out = .text out (if out = t.source then t.file else []) := by
        simp only [conclude, Bool.false_eq_true, if_false, Bool.not_false, Bool.true_and, hc']
        have hf : replaceAll Content.nilValue Content.noValue out = out := replaceAll_free hn.2
        rw [hf, hl]
      rw [this]
      exact .text out (.inr hn)

theorem run_first {n : Nat} {env : Env} {source : Text} {args : List HVal} {s s1 : State} {r : Reply} {t : Found} {p q : Heap × Nat} {ending : Ending} {st : State}
    (hs : source ≠ []) (hf : env.find source = .ok t) (hp : startContext n env false s = some p) (hq : bindArgs n p.1 p.2 args = some q)
    (hx : t.exec true q.2 ⟨q.1, p.2⟩ = (ending, st)) (hne : ∀ out e, ending ≠ .failed out e) (h : runTemplate n env source args s = some (r, s1)) :
    Reported env.acceptNoValue t ending r ∧ s1 = ⟨st.heap, s.context⟩ := by
  cases ending with
  | failed out e => exact absurd rfl (hne out e)
  | panic =>
    have h1 : attempt n env false source args s = some (.panic, none, ⟨st.heap, s.context⟩) := by simp [attempt, hp, hq, execute, hf, hx]
    rcases runTemplate_cases h with ⟨_, _, h⟩ | ⟨o, h, ho⟩ | ⟨r', src, h, h0⟩ | ⟨r', src, s2, o, h2, h3⟩
    · exact absurd h hs
    · rw [h1] at h; simp only [Option.some.injEq, Prod.mk.injEq] at h; rw [← h.1, ← h.2.2]; exact ⟨.panic, rfl⟩
    · rw [h1] at h; simp at h
    · rw [h1] at h2; simp at h2
  | done out =>
    have h1 : attempt n env false source args s = some (conclude env.acceptNoValue t.source t.file out, none, ⟨st.heap, s.context⟩) := by
      simp [attempt, hp, hq, execute, hf, hx]
    rcases runTemplate_cases h with ⟨_, _, h⟩ | ⟨o, h, ho⟩ | ⟨r', src, h, h0⟩ | ⟨r', src, s2, o, h2, h3⟩
    · exact absurd h hs
    · rw [h1] at h; simp only [Option.some.injEq, Prod.mk.injEq] at h; rw [← h.1, ← h.2.2]; exact ⟨conclude_reported _ _ _, rfl⟩
    · rw [h1] at h; simp at h
    · rw [h1] at h2; simp at h2

/-- The values of the variables in a clone are in cells created after the clone itself. -/
theorem cloneDict_inside {n : Nat} {h : Heap} {a : Nat} {h' : Heap} {c : Nat} (hf : FlatLists h (.dict a)) (hin : Within h (· < h.length) (.dict a))
    (hc : cloneDict n h a = some (h', c)) : ∃ m, h'[c]? = some (.dict m) ∧
      ∀ k v, m.get? k = some v → Within h' (fun b => c < b ∧ b < h'.length) v := by
  cases n with
  | zero => simp [cloneDict] at hc
  | succ n =>
    simp only [cloneDict, Option.bind_eq_bind, Option.bind_eq_some_iff, Option.pure_def, Option.some.injEq, Prod.mk.injEq] at hc
    obtain ⟨keys, hkeys, g, hloop, rfl, rfl⟩ := hc
    have hcell : ∃ m, h[a]? = some (.dict m) ∧ keys = m.keys := by
      simp only [mapKeys] at hkeys
      split at hkeys
      · rename_i m hm; exact ⟨m, hm, by simpa using hkeys.symm⟩
      · cases hkeys
    obtain ⟨m, hm, rfl⟩ := hcell
    have hinit : LoopInv h a (fun _ => False) (h ++ [.dict []]) := by
      refine ⟨fun i hi => append_agree _ _ i hi, by simp, ⟨[], by simp, ?_⟩, ?_⟩
      · intro k; exact ⟨fun _ => rfl, fun h => h.elim⟩
      · intro v s w hv hcw
        have hl : (h ++ [Cell.dict []]).length = h.length + 1 := by simp
        cases v with
        | atom _ => cases s <;> cases hcw
        | dict b => have h1 := hv.1; have h2 := hv.2; omega
        | list b => have h1 := hv.1; have h2 := hv.2; omega
    have hfin := LoopInv.loop hin hf (fun g a h' c hfg hwg hr => cloneDict_cloned n g a h' c hfg hwg hr) _ _ _ _ hinit (by
      intro k hk
      rw [Text.mem_sortBy, GoMap.mem_keys_iff] at hk
      rw [entry_of hm]; exact hk) hloop
    obtain ⟨m', hm', hks⟩ := hfin.cell
    refine ⟨m', hm', fun k v hv => ?_⟩
    by_cases hk : k ∈ Text.sortBy id m.keys
    · obtain ⟨_, v', _, hv', _, hw⟩ := (hks k).2 (Or.inr hk)
      rw [hv] at hv'; cases hv'
      exact hw
    · rw [(hks k).1 (by simp [hk])] at hv; cases hv

theorem bindArgs_second {n : Nat} {args : List HVal} {s : State} {p q : Heap × Nat} (hw : WFHeap s.heap) (hf : FlatLists s.heap (.dict s.context))
    (hc : s.context < s.heap.length) (hargs : ∀ a, args ≠ [.dict a]) (hp : fullContext n s = some p) (hq : bindArgs n p.1 p.2 args = some q) :
    AllVariables args s.heap s.context q.1 q.2 := by
  simp only [fullContext, Option.map_eq_some_iff] at hp
  obtain ⟨⟨g, c⟩, hcl, rfl⟩ := hp
  have hin : Within s.heap (· < s.heap.length) (.dict s.context) := Within.closed (closed_lt hw) hc
  obtain ⟨m, hm, hinside⟩ := cloneDict_inside hf hin hcl
  obtain ⟨_, hsame, _, _⟩ := cloneDict_cloned n _ _ _ _ hf hin hcl
  have hcg : c < g.length := (List.getElem?_eq_some_iff.1 hm).1
  unfold bindArgs at hq
  split at hq
  · exact absurd rfl (hargs _)
  · simp only [Option.some.injEq] at hq
    subst hq
    simp only
    have h1 := setKey_self (T "_") (.dict s.context) hm
    have h2 : (setKey g c (T "_") (.dict s.context) ++ [Cell.arr args])[c]? = some (.dict (GoMap.set m (T "_") (.dict s.context))) := by
      rw [List.getElem?_append_left (by rw [length_setKey]; exact hcg)]; exact h1
    have h3 := setKey_self (T "ARGS") (.list (setKey g c (T "_") (.dict s.context)).length) h2
    refine ⟨⟨⟨(setKey g c (T "_") (.dict s.context)).length, ?_, ?_⟩, ?_⟩, fun k k1 k2 path => ?_⟩
    · show entry _ _ _ = _
      rw [entry_of h3, GoMap.get?_set, if_pos rfl]
    · rw [setKey_ne _ _ _ _ _ (by rw [length_setKey]; omega)]; simp
    · show entry _ _ _ = _
      rw [entry_of h3, GoMap.get?_set, if_neg (by decide), GoMap.get?_set, if_pos rfl]
    · rw [← hsame, seen_cons, seen_cons]
      have e1 : child (setKey (setKey g c (T "_") (.dict s.context) ++ [Cell.arr args]) c (T "ARGS") (.list (setKey g c (T "_") (.dict s.context)).length))
          (.dict c) (.key k) = m.get? k := by
        show entry _ _ _ = _
        rw [entry_of h3, GoMap.get?_set, if_neg (Ne.symm k1), GoMap.get?_set, if_neg (Ne.symm k2)]
      have e2 : child g (.dict c) (.key k) = m.get? k := entry_of hm k
      rw [e1, e2]
      cases hv : m.get? k with
      | none => rfl
      | some v =>
        simp only [Option.bind_some]
        refine same_agree (hinside k v hv) (fun b hb => ?_) path
        rw [setKey_ne _ _ _ _ _ (by omega), List.getElem?_append_left (by rw [length_setKey]; exact hb.2), setKey_ne _ _ _ _ _ (by omega)]

/-- What a sub-template sees and what its caller gets, unless the only argument is a dictionary. The template is executed with a dictionary that has
the arguments, the caller and the constants, nothing that exists being modified. If that does not fail, its result (or panic) is what the caller
gets. If it fails, the template is executed once more with a dictionary that has all the variables of the caller, and the outcome of that is what the
caller gets. Simple hypotheses on the heap left by the first execution are needed for the contents of the variables: its references are valid and
the lists met from the context have only scalars (otherwise the copy of the lists shares their elements, see C13). -/
theorem C50_executed (n : Nat) (env : Env) (source : Text) (args : List HVal) (s s1 : State) (r : Reply) (t : Found) (hs : source ≠ [])
    (hargs : ∀ a, args ≠ [.dict a]) (hc : s.context < s.heap.length) (hf : env.find source = .ok t)
    (h : runTemplate n env source args s = some (r, s1)) :
    ∃ (h1 : Heap) (dot current : Nat) (ending : Ending) (st : State), FirstVariables env.constants args s.heap s.context h1 dot ∧
      (∀ a, a < s.heap.length → h1[a]? = s.heap[a]?) ∧ t.exec true dot ⟨h1, current⟩ = (ending, st) ∧
      ((∀ out e, ending ≠ .failed out e) → Reported env.acceptNoValue t ending r ∧ s1 = ⟨st.heap, s.context⟩) ∧
      ∀ out e, ending = .failed out e → t.source ≠ [] →
        (∃ e', env.find t.source = .error e' ∧ r = .error e') ∨
        ∃ t2 h2 dot2 current2 ending2 st2, env.find t.source = .ok t2 ∧ t2.exec false dot2 ⟨h2, current2⟩ = (ending2, st2) ∧
          (WFHeap st.heap → FlatLists st.heap (.dict s.context) → s.context < st.heap.length → AllVariables args st.heap s.context h2 dot2) ∧
          Reported env.acceptNoValue t2 ending2 r ∧ s1 = ⟨st2.heap, s.context⟩ := by
  obtain ⟨q1, q2, q3, _⟩ := smallContext_spec env.constants hc
  obtain ⟨h1, hb, ha, hk⟩ := bindArgs_first n env.constants args s hc hargs
  have hp : startContext n env false s = some (smallContext env.constants s) := rfl
  rcases hx : t.exec true s.heap.length ⟨h1, (smallContext env.constants s).2⟩ with ⟨ending, st⟩
  refine ⟨h1, s.heap.length, (smallContext env.constants s).2, ending, st, ⟨⟨ha, ?_⟩, ?_, ?_⟩, ?_, hx, ?_, ?_⟩
  · rw [hk _ (by decide), if_pos rfl]
  · intro k hkc k1 k2; rw [hk k k1, if_neg k2, if_pos hkc]
  · intro k v hv
    by_cases k1 : k = T "ARGS"
    · exact .inl k1
    · rw [hk k k1] at hv
      by_cases k2 : k = T "_"
      · exact .inr (.inl k2)
      · rw [if_neg k2] at hv
        by_cases k3 : k ∈ env.constants
        · exact .inr (.inr k3)
        · rw [if_neg k3] at hv; cases hv
  · intro a hal
    unfold bindArgs at hb
    split at hb
    · exact absurd rfl (hargs _)
    · simp only [Option.some.injEq, Prod.mk.injEq] at hb
      rw [← hb.1, setKey_ne _ _ _ _ _ (by omega), List.getElem?_append_left (by omega), q3 a hal]
  · intro hne
    exact run_first hs hf hp hb hx hne h
  · rintro out e rfl ht
    obtain ⟨o, h2⟩ := run_retry n env source args s s1 r t out e _ _ st hs hf ht hp hb hx h
    obtain ⟨p', q', hp', hq', hex⟩ := attempt_cases h2
    unfold execute at hex
    split at hex
    · rename_i e' he'
      simp only [Prod.mk.injEq] at hex
      exact .inl ⟨e', he', hex.1.symm⟩
    · rename_i t2 ht2
      right
      rcases hx2 : t2.exec false q'.2 ⟨q'.1, p'.2⟩ with ⟨ending2, st2⟩
      refine ⟨t2, q'.1, q'.2, p'.2, ending2, st2, ht2, hx2, fun hw hfl hcl => bindArgs_second (s := ⟨st.heap, s.context⟩) hw hfl hcl hargs hp' hq', ?_⟩
      simp only [Bool.not_true, hx2] at hex
      cases ending2 with
      | panic => simp only [Prod.mk.injEq] at hex; rw [← hex.1, ← hex.2.2]; exact ⟨.panic, rfl⟩
      | done out2 => simp only [Prod.mk.injEq] at hex; rw [← hex.1, ← hex.2.2]; exact ⟨conclude_reported _ _ _, rfl⟩
      | failed out2 e2 => simp only [Prod.mk.injEq] at hex; rw [← hex.1, ← hex.2.2]; exact ⟨.failed _ _, rfl⟩

/-- With a dictionary as argument, the sub-template sees the keys of the dictionary first, then the constants and `_`. The dictionary itself is
what it sees, so that it is modified: it gets the constants and the context of the caller, and keeps all it has. Nothing else is modified.
What is missing: keys of the argument that hold a dictionary and have the name of a constant or `_` are merged, and the second execution after a
failure is not described. -/
theorem C50_argument_partial (n : Nat) (env : Env) (source : Text) (a : Nat) (m : GoMap HVal) (s s1 : State) (r : Reply) (t : Found) (hs : source ≠ [])
    (hc : s.context < s.heap.length) (ha : s.heap[a]? = some (.dict m)) (hd : ∀ k x, m.get? k = some (.dict x) → k ∉ env.constants ∧ k ≠ T "_")
    (hf : env.find source = .ok t) (h : runTemplate (n + 1) env source [.dict a] s = some (r, s1)) :
    ∃ (h1 : Heap) (current : Nat) (ending : Ending) (st : State),
      (∀ b, b < s.heap.length → b ≠ a → h1[b]? = s.heap[b]?) ∧
      (∀ k, child h1 (.dict a) (.key k) = (child s.heap (.dict a) (.key k)).or
        (if k = T "_" then some (.dict s.context)
         else if k ∈ env.constants then some ((child s.heap (.dict s.context) (.key k)).getD (.atom .nil)) else none)) ∧
      t.exec true a ⟨h1, current⟩ = (ending, st) ∧
      ((∀ out e, ending ≠ .failed out e) → Reported env.acceptNoValue t ending r ∧ s1 = ⟨st.heap, s.context⟩) := by
  obtain ⟨h1, hb, hk1, hk2⟩ := bindArgs_dict n env.constants a m s hc ha hd
  have hp : startContext (n + 1) env false s = some (smallContext env.constants s) := rfl
  rcases hx : t.exec true a ⟨h1, (smallContext env.constants s).2⟩ with ⟨ending, st⟩
  exact ⟨h1, (smallContext env.constants s).2, ending, st, hk1, hk2, hx, fun hne => run_first hs hf hp hb hx hne h⟩

/-- A template that sets a variable of its own and creates a dictionary, and gives a text. -/
private def ownVariables (dot : Nat) (s : State) : Ending × State :=
  (.done (T "x"), ⟨setKey s.heap dot (T "c") (.atom (.int 2)) ++ [.dict [(T "v", .atom (.int 3))]], s.context⟩)

private theorem ownVariables_discreet (constants : List Text) (N : Nat) : Discreet (single constants (fun _ => ownVariables)) N := by
  intro src t ht b dot st e st' h1 _ h2 hx a ha
  simp only [single, Except.ok.injEq] at ht
  rw [← ht] at hx
  simp only [ownVariables, Prod.mk.injEq] at hx
  rw [← hx.2]
  simp only
  rw [List.getElem?_append_left (by rw [length_setKey]; omega), setKey_ne _ _ _ _ _ (by omega)]

example : ∃ s', runTemplate 3 (single [T "c"] (fun _ => ownVariables)) (T "t") [.atom (.int 1)]
      ⟨[.dict [(T "c", .atom (.int 1)), (T "d", .dict 1)], .dict []], 0⟩ = some (.text (T "x") [], s') ∧
    SameContents [.dict [(T "c", .atom (.int 1)), (T "d", .dict 1)], .dict []] (.dict 0) s'.heap (.dict 0) :=
  ⟨_, rfl, C50_kept_partial 3 _ (T "t") [.atom (.int 1)] ⟨[.dict [(T "c", .atom (.int 1)), (T "d", .dict 1)], .dict []], 0⟩ _ _ (by simp)
    (ownVariables_discreet _ _) (by decide) rfl (.dict 0) (by
      refine Within.closed ?_ (by decide : 0 < 2)
      intro v st w _ hc
      cases v with
      | atom _ => cases st <;> cases hc
      | list b =>
        cases st with
        | key _ => cases hc
        | idx i => match b with
          | 0 | 1 => simp [child] at hc
          | b + 2 => simp [child] at hc
      | dict a =>
        cases st with
        | idx _ => cases hc
        | key k => match a with
          | 0 =>
            simp only [child, List.getElem?_cons_zero, GoMap.get?] at hc
            split at hc
            · cases hc; trivial
            · split at hc
              · cases hc; simp [Ref]
              · cases hc
          | 1 => simp [child, GoMap.get?] at hc
          | a + 2 => simp [child] at hc)⟩

/-- The hypotheses of the previous theorems are met: a template that writes in its own context and fails the first time. -/
example :
    let env := single [T "c"] (fun strict dot s =>
      if strict then (.failed [] (T "no entry"), ⟨setKey s.heap dot (T "v") (.atom (.int 2)), 5⟩) else (.done (T "x"), ⟨setKey s.heap dot (T "v") (.atom (.int 2)), 6⟩))
    let s : State := ⟨[.dict [(T "c", .atom (.int 1)), (T "d", .dict 1)], .dict []], 0⟩
    ∃ s', runTemplate 3 env (T "t") [] s = some (.text (T "x") [], s') ∧ s'.context = 0 ∧ s'.heap.length = 7 ∧ s'.heap[0]? = s.heap[0]? :=
  ⟨_, rfl, rfl, rfl, rfl⟩

example : ∀ k x, GoMap.get? [(T "c", HVal.atom (.int 1)), (T "d", HVal.dict 1)] k = some (.dict x) → k ∉ [T "c"] ∧ k ≠ T "_" := by
  intro k x h
  simp only [GoMap.get?_cons, GoMap.get?_nil] at h
  split at h
  · simp at h
  · split at h
    · rename_i hk; subst hk; decide
    · simp at h

/-- A dictionary given as argument is modified: after `include "t" $d`, `$d` has a key for each constant and the context of the caller. -/
theorem C50_not_argument : ∃ (n : Nat) (env : Env) (s s' : State) (a : Nat), runTemplate n env (T "t") [.dict a] s = some (.text (T "x") [], s') ∧
    Discreet env s.heap.length ∧ child s.heap (.dict a) (.key (T "c")) = none ∧ child s'.heap (.dict a) (.key (T "c")) = some (.atom (.int 1)) ∧
    child s.heap (.dict a) (.key (T "_")) = none ∧ child s'.heap (.dict a) (.key (T "_")) = some (.dict s.context) := by
  refine ⟨1, single [T "c"] (fun _ _ s => (.done (T "x"), s)), ⟨[.dict [(T "c", .atom (.int 1))], .dict []], 0⟩, ⟨_, 0⟩, 1, rfl, ?_, rfl, rfl, rfl, rfl⟩
  intro src t ht b dot st e st' _ _ _ hx a _
  simp only [single, Except.ok.injEq] at ht
  rw [← ht] at hx
  simp only [Prod.mk.injEq] at hx
  rw [hx.2]

/-- A sub-template can modify the context of its caller through `_`. -/
theorem C50_not_isolated : ∃ (n : Nat) (w : Write) (env : Env) (s s' : State),
    (∀ src t, env.find src = .ok t → ∀ b dot st, t.exec b dot st = (.done (T "x"), ⟨w.apply st.heap (.dict dot), st.context⟩)) ∧
    runTemplate n env (T "t") [] s = some (.text (T "x") [], s') ∧
    child s.heap (.dict s.context) (.key (T "v")) = none ∧ child s'.heap (.dict s.context) (.key (T "v")) = some (.atom (.int 1)) := by
  refine ⟨1, .setKey [.key (T "_")] (T "v") (.atom (.int 1)),
    single [] (fun _ dot s => (.done (T "x"), ⟨(Write.setKey [.key (T "_")] (T "v") (.atom (.int 1))).apply s.heap (.dict dot), s.context⟩)),
    ⟨[.dict []], 0⟩, ⟨_, 0⟩, ?_, rfl, rfl, rfl⟩
  intro src t ht b dot st
  simp only [single, Except.ok.injEq] at ht
  rw [← ht]

/-- A template that includes another one with its own dot, and is itself included with the dot of its caller, makes the context of the caller
contain itself: from then on, cloning that context (which is how the next file is rendered) never ends. -/
theorem C50_not_nested : ∃ (n : Nat) (inner outer : Env) (s s' : State) (a : Nat),
    (∀ src t, inner.find src = .ok t → ∀ b dot st, t.exec b dot st = (.done (T "x"), st)) ∧
    (∀ src t, outer.find src = .ok t → ∀ b dot st r st', runTemplate n inner (T "u") [.dict dot] st = some (r, st') → t.exec b dot st = (.done (T "x"), st')) ∧
    runTemplate n outer (T "t") [.dict a] s = some (.text (T "x") [], s') ∧
    (∃ m h' c, cloneDict m s.heap s.context = some (h', c)) ∧ ∀ m, cloneDict m s'.heap s.context = none := by
  let inner := single [] (fun _ _ s => (.done (T "x"), s))
  let outer := single [] (fun _ dot s =>
    match runTemplate 2 inner (T "u") [.dict dot] s with
    | some (_, s') => (.done (T "x"), s')
    | none => (.panic, s))
  refine ⟨2, inner, outer, ⟨[.dict [], .dict []], 0⟩, ⟨_, 0⟩, 1, ?_, ?_, rfl, ⟨1, _, _, rfl⟩, ?_⟩
  · intro src t ht b dot st
    simp only [inner, single, Except.ok.injEq] at ht
    rw [← ht]
  · intro src t ht b dot st r st' hr
    simp only [outer, single, Except.ok.injEq] at ht
    rw [← ht]
    simp only [hr]
  · have key : ∀ m (h : Heap), h[0]? = some (.dict [(T "_", .dict 0)]) → cloneDict m h 0 = none := by
      intro m
      induction m with
      | zero => intro h _; rfl
      | succ m ih =>
        intro h hh
        have hl : 0 < h.length := (List.getElem?_eq_some_iff.1 hh).1
        have hh' : (h ++ [Cell.dict []])[0]? = some (.dict [(T "_", .dict 0)]) := by rw [List.getElem?_append_left hl]; exact hh
        have e1 : mapKeys h 0 = some [T "_"] := by simp [mapKeys, hh, GoMap.keys]
        have e2 : Text.sortBy id [T "_"] = [T "_"] := rfl
        have e3 : entry (h ++ [Cell.dict []]) 0 (T "_") = some (.dict 0) := by rw [entry_of hh']; rfl
        simp [cloneDict, e1, e2, cloneLoop, e3, cloneVal, ih _ hh']
    intro m
    exact key m _ rfl

end Verif.Props
