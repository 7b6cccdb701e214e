import Verif.Model.FindFiles
/-!
# Lemmas about the search of files
-/

namespace Verif.Lemmas
open Verif Spec FindFiles

mutual
/-- The folders where files are searched. -/
def dirsNode (m : Nat) (path : List Text) (depth : Nat) : Node → List (List Text)
  | .file => []
  | .link _ => []
  | .dir es => if depth > m then [] else path :: dirsEntries m path depth es
def dirsEntries (m : Nat) (path : List Text) (depth : Nat) : List (Text × Node) → List (List Text)
  | [] => []
  | (name, x) :: es => dirsNode m (path ++ [name]) (depth + 1) x ++ dirsEntries m path depth es
end

mutual
theorem walkNode_plain (c : Config) (hf : c.followLinks = false) (w : List Text → List (List Text) → Option St) (path : List Text) (depth : Nat) : ∀ (x : Node) (s : St),
    ∃ v, walkNode c w path depth x s = some ⟨s.results ++ (dirsNode c.maxDepth path depth x).flatMap c.find, v⟩
  | .file, s => ⟨s.visited, by simp [walkNode, dirsNode]⟩
  | .link t, s => ⟨s.visited, by simp [walkNode, dirsNode, hf]⟩
  | .dir es, s => by
    by_cases h : depth > c.maxDepth
    · exact ⟨path :: s.visited, by simp [walkNode, dirsNode, h]⟩
    · obtain ⟨v, hv⟩ := walkEntries_plain c hf w path depth es ⟨s.results ++ c.find path, path :: s.visited⟩
      exact ⟨v, by simp [walkNode, dirsNode, h, hv]⟩
theorem walkEntries_plain (c : Config) (hf : c.followLinks = false) (w : List Text → List (List Text) → Option St) (path : List Text) (depth : Nat) :
    ∀ (es : List (Text × Node)) (s : St),
    ∃ v, walkEntries c w path depth es s = some ⟨s.results ++ (dirsEntries c.maxDepth path depth es).flatMap c.find, v⟩
  | [], s => ⟨s.visited, by simp [walkEntries, dirsEntries]⟩
  | (name, x) :: es, s => by
    obtain ⟨v, hv⟩ := walkNode_plain c hf w (path ++ [name]) (depth + 1) x s
    obtain ⟨v', hv'⟩ := walkEntries_plain c hf w path depth es ⟨s.results ++ (dirsNode c.maxDepth (path ++ [name]) (depth + 1) x).flatMap c.find, v⟩
    exact ⟨v', by simp [walkEntries, dirsEntries, hv, hv']⟩
end

theorem at_nil (x : Node) : x.at [] = some x := by cases x <;> rfl

theorem at_cons (es : List (Text × Node)) (name : Text) (q : List Text) : Node.at (.dir es) (name :: q) = (Node.entry es name).bind (fun y => y.at q) := rfl

theorem entry_mem {es : List (Text × Node)} {name : Text} {x : Node} (h : Node.entry es name = some x) : (name, x) ∈ es := by
  induction es with
  | nil => simp [Node.entry] at h
  | cons e es ih =>
    obtain ⟨n, y⟩ := e
    simp only [Node.entry] at h
    split at h
    · rename_i hn; subst hn; injection h with h; subst h; simp
    · exact List.mem_cons_of_mem _ (ih h)

theorem entry_of_mem {es : List (Text × Node)} (hn : (es.map Prod.fst).Nodup) {name : Text} {x : Node} (h : (name, x) ∈ es) : Node.entry es name = some x := by
  induction es with
  | nil => simp at h
  | cons e es ih =>
    obtain ⟨n, y⟩ := e
    simp only [List.map_cons, List.nodup_cons] at hn
    simp only [Node.entry]
    rcases List.mem_cons.1 h with h | h
    · simp only [Prod.mk.injEq] at h; obtain ⟨rfl, rfl⟩ := h; simp
    · rw [if_neg (by rintro rfl; exact hn.1 (List.mem_map_of_mem (f := Prod.fst) h))]
      exact ih hn.2 h

theorem _root_.Verif.Spec.DistinctNames.sub {x y : Node} {p : List Text} (h : DistinctNames x) (hy : x.at p = some y) : DistinctNames y := by
  intro q es hq
  refine h (p ++ q) es ?_
  clear h
  induction p generalizing x with
  | nil => rw [at_nil] at hy; injection hy with hy; subst hy; exact hq
  | cons n p ih =>
    cases x with
    | dir es' =>
      rw [at_cons] at hy
      obtain ⟨z, hz, hy⟩ := Option.bind_eq_some_iff.1 hy
      rw [List.cons_append, at_cons, hz]
      exact ih hy
    | file => cases hy
    | link t => cases hy

theorem at_append (x : Node) (p q : List Text) : x.at (p ++ q) = (x.at p).bind (fun y => y.at q) := by
  induction p generalizing x with
  | nil => rw [at_nil]; rfl
  | cons n p ih =>
    cases x with
    | dir es =>
      rw [List.cons_append, at_cons, at_cons]
      cases Node.entry es n with
      | none => rfl
      | some z => exact ih z
    | file => rfl
    | link t => rfl

mutual
theorem mem_dirsNode {m : Nat} {path : List Text} {depth : Nat} : ∀ (x : Node), DistinctNames x → ∀ p,
    p ∈ dirsNode m path depth x ↔ ∃ q, p = path ++ q ∧ IsDir x q ∧ depth + q.length ≤ m
  | .file, _, p => by
    simp only [dirsNode, List.not_mem_nil, false_iff]
    rintro ⟨q, _, ⟨es, h⟩, _⟩
    cases q <;> cases h
  | .link t, _, p => by
    simp only [dirsNode, List.not_mem_nil, false_iff]
    rintro ⟨q, _, ⟨es, h⟩, _⟩
    cases q <;> cases h
  | .dir es, hd, p => by
    have hes : ∀ e ∈ es, DistinctNames e.2 := by
      intro e he
      refine hd.sub (p := [e.1]) ?_
      rw [at_cons, entry_of_mem (hd [] es (at_nil _)) (x := e.2) he]
      exact at_nil _
    have := mem_dirsEntries (m := m) (path := path) (depth := depth) es (hd [] es (at_nil _)) hes p
    simp only [dirsNode]
    by_cases h : depth > m
    · rw [if_pos h]
      simp only [List.not_mem_nil, false_iff]
      rintro ⟨q, _, _, hq⟩; omega
    · rw [if_neg h, List.mem_cons, this]
      constructor
      · rintro (rfl | ⟨name, q, rfl, h1, h2⟩)
        · exact ⟨[], by simp, ⟨es, at_nil _⟩, by simp; omega⟩
        · exact ⟨name :: q, rfl, h1, by simp; omega⟩
      · rintro ⟨q, rfl, h1, h2⟩
        cases q with
        | nil => left; simp
        | cons name q => right; exact ⟨name, q, rfl, h1, by simp at h2; omega⟩
theorem mem_dirsEntries {m : Nat} {path : List Text} {depth : Nat} : ∀ (es : List (Text × Node)), (es.map Prod.fst).Nodup → (∀ e ∈ es, DistinctNames e.2) → ∀ p,
    p ∈ dirsEntries m path depth es ↔ ∃ name q, p = path ++ name :: q ∧ IsDir (.dir es) (name :: q) ∧ depth + 1 + q.length ≤ m
  | [], _, _, p => by
    simp only [dirsEntries, List.not_mem_nil, false_iff]
    rintro ⟨n, q, _, ⟨es, h⟩, _⟩
    cases h
  | (name, x) :: es, hn, hd, p => by
    have h1 := mem_dirsNode (m := m) (path := path ++ [name]) (depth := depth + 1) x (hd (name, x) (by simp)) p
    simp only [List.map_cons, List.nodup_cons] at hn
    have h2 := mem_dirsEntries (m := m) (path := path) (depth := depth) es hn.2 (fun e he => hd e (by simp [he])) p
    simp only [dirsEntries, List.mem_append, h1, h2]
    constructor
    · rintro (⟨q, rfl, ⟨es', k1⟩, k2⟩ | ⟨n, q, rfl, ⟨es', k1⟩, k2⟩)
      · exact ⟨name, q, by simp, ⟨es', by rw [at_cons]; simp [Node.entry, k1]⟩, by omega⟩
      · refine ⟨n, q, rfl, ⟨es', ?_⟩, k2⟩
        rw [at_cons] at k1 ⊢
        obtain ⟨z, hz, _⟩ := Option.bind_eq_some_iff.1 k1
        have : name ≠ n := by rintro rfl; exact hn.1 (List.mem_map_of_mem (f := Prod.fst) (entry_mem hz))
        simpa [Node.entry, this] using k1
    · rintro ⟨n, q, rfl, ⟨es', k1⟩, k2⟩
      rw [at_cons] at k1
      by_cases h : name = n
      · subst h
        simp only [Node.entry, if_true, Option.bind_some] at k1
        exact .inl ⟨q, by simp, ⟨es', k1⟩, by omega⟩
      · simp only [Node.entry, h, if_false] at k1
        exact .inr ⟨n, q, rfl, ⟨es', by rw [at_cons]; exact k1⟩, k2⟩
end

mutual
theorem prefix_dirsNode {m : Nat} {path : List Text} {depth : Nat} : ∀ (x : Node) p, p ∈ dirsNode m path depth x → path <+: p
  | .file, p, h => by simp [dirsNode] at h
  | .link _, p, h => by simp [dirsNode] at h
  | .dir es, p, h => by
    simp only [dirsNode] at h
    split at h
    · simp at h
    · rcases List.mem_cons.1 h with rfl | h
      · exact List.prefix_refl _
      · obtain ⟨n, q, _, hq⟩ := prefix_dirsEntries es p h
        exact ⟨n :: q, hq.symm⟩
theorem prefix_dirsEntries {m : Nat} {path : List Text} {depth : Nat} : ∀ (es : List (Text × Node)) p, p ∈ dirsEntries m path depth es →
    ∃ n q, n ∈ es.map Prod.fst ∧ p = path ++ n :: q
  | [], p, h => by simp [dirsEntries] at h
  | (name, x) :: es, p, h => by
    simp only [dirsEntries, List.mem_append] at h
    rcases h with h | h
    · obtain ⟨q, hq⟩ := prefix_dirsNode x p h
      exact ⟨name, q, by simp, by rw [← hq]; simp⟩
    · obtain ⟨n, q, hn, hq⟩ := prefix_dirsEntries es p h
      exact ⟨n, q, by simp at hn ⊢; exact .inr hn, hq⟩
end

mutual
theorem nodup_dirsNode {m : Nat} {path : List Text} {depth : Nat} : ∀ (x : Node), DistinctNames x → (dirsNode m path depth x).Nodup
  | .file, _ => by simp [dirsNode]
  | .link _, _ => by simp [dirsNode]
  | .dir es, hd => by
    have hes : ∀ e ∈ es, DistinctNames e.2 := by
      intro e he
      refine hd.sub (p := [e.1]) ?_
      rw [at_cons, entry_of_mem (hd [] es (at_nil _)) (x := e.2) he]
      exact at_nil _
    simp only [dirsNode]
    split
    · simp
    · refine List.nodup_cons.2 ⟨fun h => ?_, nodup_dirsEntries es (hd [] es (at_nil _)) hes⟩
      obtain ⟨n, q, _, hq⟩ := prefix_dirsEntries es path h
      have := congrArg List.length hq
      simp at this
theorem nodup_dirsEntries {m : Nat} {path : List Text} {depth : Nat} : ∀ (es : List (Text × Node)), (es.map Prod.fst).Nodup → (∀ e ∈ es, DistinctNames e.2) →
    (dirsEntries m path depth es).Nodup
  | [], _, _ => by simp [dirsEntries]
  | (name, x) :: es, hn, hd => by
    simp only [List.map_cons, List.nodup_cons] at hn
    simp only [dirsEntries]
    refine List.nodup_append.2 ⟨nodup_dirsNode x (hd (name, x) (by simp)), nodup_dirsEntries es hn.2 (fun e he => hd e (by simp [he])), ?_⟩
    rintro a ha b hb rfl
    obtain ⟨q, hq⟩ := prefix_dirsNode x a ha
    obtain ⟨n, q', hn', hq'⟩ := prefix_dirsEntries es a hb
    rw [hq'] at hq
    rw [List.append_assoc] at hq
    have := List.append_cancel_left hq
    simp only [List.cons_append, List.nil_append, List.cons.injEq] at this
    exact hn.1 (by rw [this.1]; exact hn')
end


/-! ## Following links -/

/-- What holds of the folders searched by a step: where they come from. -/
def Sound (c : Config) (P : List Text → Prop) (s : St) (r : Option St) : Prop :=
  ∀ s', r = some s' → ∃ ds : List (List Text), s'.results = s.results ++ ds.flatMap c.find ∧ ∀ d ∈ ds, P d

/-- A folder searched by a complete search. -/
def FoundIn (c : Config) (folder d : List Text) : Prop :=
  ∃ r q, StartFolder c.root c.maxDepth folder r ∧ d = r ++ q ∧ q.length ≤ c.maxDepth ∧ (q = [] ∨ IsDir c.root d)

mutual
theorem walkNode_sound (c : Config) (folder : List Text) (w : List Text → List (List Text) → Option St)
    (hw : ∀ t v, StartFolder c.root c.maxDepth folder t → Sound c (FoundIn c folder) ⟨[], v⟩ (w t v)) (r : List Text)
    (hr : StartFolder c.root c.maxDepth folder r) (hd : DistinctNames c.root) : ∀ (x : Node) (q : List Text) (s : St), c.root.at (r ++ q) = some x → q ≠ [] →
    q.length ≤ c.maxDepth + 1 → Sound c (FoundIn c folder) s (walkNode c w (r ++ q) q.length x s)
  | .file, q, s, _, _, _ => by
    intro s' h; simp only [walkNode, Option.some.injEq] at h; subst h; exact ⟨[], by simp, by simp⟩
  | .link t, q, s, hx, _, hq => by
    intro s' h
    simp only [walkNode] at h
    split at h
    · obtain ⟨s1, h1, h2⟩ := Option.map_eq_some_iff.1 h
      obtain ⟨ds, h3, h4⟩ := hw t s.visited (.linked r q t hr hq hx) s1 h1
      subst h2
      exact ⟨ds, by simpa using h3, h4⟩
    · injection h with h; subst h; exact ⟨[], by simp, by simp⟩
  | .dir es, q, s, hx, hq0, hq => by
    intro s' h
    simp only [walkNode] at h
    split at h
    · injection h with h; subst h; exact ⟨[], by simp, by simp⟩
    · rename_i hle
      have hle : q.length ≤ c.maxDepth := by omega
      obtain ⟨ds, h1, h2⟩ := walkEntries_sound c folder w hw r hr hd es es q _ (fun e he => he) hx hle s' h
      refine ⟨(r ++ q) :: ds, by simp [h1], ?_⟩
      intro d hdd
      rcases List.mem_cons.1 hdd with rfl | hdd
      · exact ⟨r, q, hr, rfl, hle, .inr ⟨es, hx⟩⟩
      · exact h2 d hdd
theorem walkEntries_sound (c : Config) (folder : List Text) (w : List Text → List (List Text) → Option St)
    (hw : ∀ t v, StartFolder c.root c.maxDepth folder t → Sound c (FoundIn c folder) ⟨[], v⟩ (w t v)) (r : List Text)
    (hr : StartFolder c.root c.maxDepth folder r) (hd : DistinctNames c.root) : ∀ (es all : List (Text × Node)) (q : List Text) (s : St), (∀ e ∈ es, e ∈ all) →
    c.root.at (r ++ q) = some (.dir all) → q.length ≤ c.maxDepth → Sound c (FoundIn c folder) s (walkEntries c w (r ++ q) q.length es s)
  | [], all, q, s, _, _, _ => by
    intro s' h; simp only [walkEntries, Option.some.injEq] at h; subst h; exact ⟨[], by simp, by simp⟩
  | (name, x) :: es, all, q, s, hes, hx, hq => by
    intro s' h
    simp only [walkEntries] at h
    obtain ⟨s1, h1, h2⟩ := Option.bind_eq_some_iff.1 h
    have hat : c.root.at (r ++ (q ++ [name])) = some x := by
      rw [← List.append_assoc, at_append, hx, Option.bind_some, at_cons, entry_of_mem (hd _ _ hx) (hes (name, x) (by simp)), Option.bind_some, at_nil]
    have := walkNode_sound c folder w hw r hr hd x (q ++ [name]) s hat (by simp) (by simp; omega) s1 (by simpa using h1)
    obtain ⟨ds, k1, k2⟩ := this
    obtain ⟨ds', k3, k4⟩ := walkEntries_sound c folder w hw r hr hd es all q s1 (fun e he => hes e (by simp [he])) hx hq s' h2
    refine ⟨ds ++ ds', by simp [k3, k1], ?_⟩
    intro d hdd
    rcases List.mem_append.1 hdd with hdd | hdd
    · exact k2 d hdd
    · exact k4 d hdd
end

theorem walker_sound (c : Config) (hd : DistinctNames c.root) (folder : List Text) (n : Nat) : ∀ r v, StartFolder c.root c.maxDepth folder r →
    Sound c (FoundIn c folder) ⟨[], v⟩ (walker c n r v) := by
  induction n with
  | zero => intro r v _ s' h; cases h
  | succ n ih =>
    intro r v hr s' h
    have h0 : FoundIn c folder r := ⟨r, [], hr, by simp, by simp, .inl rfl⟩
    simp only [walker] at h
    split at h
    · injection h with h; subst h; exact ⟨[r], by simp, by simpa using h0⟩
    · split at h
      · rename_i es hes
        have hes' : c.root.at (r ++ []) = some (.dir es) := by simpa using hes
        obtain ⟨ds, h1, h2⟩ := walkEntries_sound c folder (walker c n) ih r hr hd es es [] ⟨c.find r, v⟩ (fun e he => he) hes' (by simp) s' (by simpa using h)
        refine ⟨r :: ds, by simp [h1], ?_⟩
        intro d hdd
        rcases List.mem_cons.1 hdd with rfl | hdd
        · exact h0
        · exact h2 d hdd
      · injection h with h; subst h; exact ⟨[r], by simp, by simpa using h0⟩

/-- The entries of a folder are among some places: its folders, and the targets of its links. -/
def ClosedAt (c : Config) (S : List Text → Prop) (p : List Text) : Prop :=
  (∀ name, IsDir c.root (p ++ [name]) → S (p ++ [name])) ∧ (∀ name t, IsLink c.root (p ++ [name]) t → S t)

theorem ClosedAt.mono {c : Config} {S S' : List Text → Prop} {p : List Text} (h : ClosedAt c S p) (hs : ∀ x, S x → S' x) : ClosedAt c S' p :=
  ⟨fun n hn => hs _ (h.1 n hn), fun n t hn => hs _ (h.2 n t hn)⟩

/-- What holds of a step of a search that knows the places `S`. -/
def Complete (c : Config) (S : List Text → Prop) (s s' : St) (ds : List (List Text)) : Prop :=
  s'.results = s.results ++ ds.flatMap c.find ∧ (∀ v ∈ s'.visited, S v ∨ v ∈ ds) ∧ ∀ d ∈ ds, ClosedAt c (fun x => S x ∨ x ∈ ds) d

mutual
theorem walkNode_complete (c : Config) (hf : c.followLinks = true) (hd : DistinctNames c.root) (hm : ∀ p, IsDir c.root p → p.length ≤ c.maxDepth)
    (w : List Text → List (List Text) → Option St)
    (hw : ∀ t v (S : List Text → Prop) s', (∀ p ∈ v, S p) → w t v = some s' → ∃ ds, t ∈ ds ∧ Complete c S ⟨[], v⟩ s' ds) :
    ∀ (x : Node) (p : List Text) (k : Nat) (s s' : St) (S : List Text → Prop), (∀ v ∈ s.visited, S v) → c.root.at p = some x → k ≤ p.length →
    walkNode c w p k x s = some s' → ∃ ds, Complete c S s s' ds ∧ (IsDir c.root p → p ∈ ds) ∧ (∀ t, IsLink c.root p t → S t ∨ t ∈ ds)
  | .file, p, k, s, s', S, hv, hx, hk, h => by
    simp only [walkNode, Option.some.injEq] at h; subst h
    refine ⟨[], ⟨by simp, fun v h => .inl (hv v h), by simp⟩, ?_, ?_⟩
    · rintro ⟨es, he⟩; rw [hx] at he; cases he
    · intro t ht; unfold IsLink at ht; rw [hx] at ht; cases ht
  | .link t, p, k, s, s', S, hv, hx, hk, h => by
    have hnd : IsDir c.root p → False := by rintro ⟨es, he⟩; rw [hx] at he; cases he
    have hlink : ∀ t', IsLink c.root p t' → t' = t := by
      intro t' ht; unfold IsLink at ht; rw [hx] at ht; injection ht with ht; injection ht with ht; exact ht.symm
    simp only [walkNode] at h
    split at h
    · obtain ⟨s1, h1, h2⟩ := Option.map_eq_some_iff.1 h
      obtain ⟨ds, h3, h4, h5, h6⟩ := hw t s.visited S s1 hv h1
      subst h2
      exact ⟨ds, ⟨by simpa using h4, h5, h6⟩, fun h => (hnd h).elim, fun t' ht => .inr (by rw [hlink t' ht]; exact h3)⟩
    · rename_i hc
      injection h with h; subst h
      have : t ∈ s.visited := by
        false_or_by_contra
        rename_i hc'
        exact hc ⟨hf, hc'⟩
      exact ⟨[], ⟨by simp, fun v h => .inl (hv v h), by simp⟩, fun h => (hnd h).elim, fun t' ht => .inl (by rw [hlink t' ht]; exact hv t this)⟩
  | .dir es, p, k, s, s', S, hv, hx, hk, h => by
    have hp : IsDir c.root p := ⟨es, hx⟩
    have hnl : ∀ t, ¬ IsLink c.root p t := by intro t ht; unfold IsLink at ht; rw [hx] at ht; cases ht
    have := hm p hp
    simp only [walkNode] at h
    rw [if_neg (Nat.not_lt.2 (Nat.le_trans hk this))] at h
    obtain ⟨ds, ⟨h1, h2, h3⟩, h4⟩ := walkEntries_complete c hf hd hm w hw es es p k _ s' (fun x => S x ∨ x = p)
      (by intro v hv'; rcases List.mem_cons.1 hv' with rfl | hv'; exact .inr rfl; exact .inl (hv v hv')) (fun e he => he) hx hk h
    have hS : ∀ x, ((S x ∨ x = p) ∨ x ∈ ds) → S x ∨ x ∈ p :: ds := by
      rintro x ((h | rfl) | h)
      · exact .inl h
      · exact .inr (by simp)
      · exact .inr (by simp [h])
    refine ⟨p :: ds, ⟨by simp [h1], fun v hv' => hS v (h2 v hv'), ?_⟩, fun _ => by simp, fun t ht => (hnl t ht).elim⟩
    intro d hdd
    rcases List.mem_cons.1 hdd with rfl | hdd
    · refine ClosedAt.mono (S := fun x => (S x ∨ x = d) ∨ x ∈ ds) ?_ hS
      constructor
      · intro name ⟨es', hn⟩
        have hn' := hn
        rw [at_append, hx, Option.bind_some, at_cons] at hn'
        obtain ⟨z, hz, _⟩ := Option.bind_eq_some_iff.1 hn'
        exact (h4 (name, z) (entry_mem hz)).1 ⟨es', hn⟩
      · intro name t hn
        have hn' : c.root.at (d ++ [name]) = some (.link t) := hn
        rw [at_append, hx, Option.bind_some, at_cons] at hn'
        obtain ⟨z, hz, _⟩ := Option.bind_eq_some_iff.1 hn'
        exact (h4 (name, z) (entry_mem hz)).2 t hn
    · exact (h3 d hdd).mono hS
theorem walkEntries_complete (c : Config) (hf : c.followLinks = true) (hd : DistinctNames c.root) (hm : ∀ p, IsDir c.root p → p.length ≤ c.maxDepth)
    (w : List Text → List (List Text) → Option St)
    (hw : ∀ t v (S : List Text → Prop) s', (∀ p ∈ v, S p) → w t v = some s' → ∃ ds, t ∈ ds ∧ Complete c S ⟨[], v⟩ s' ds) :
    ∀ (es all : List (Text × Node)) (p : List Text) (k : Nat) (s s' : St) (S : List Text → Prop), (∀ v ∈ s.visited, S v) → (∀ e ∈ es, e ∈ all) →
    c.root.at p = some (.dir all) → k ≤ p.length → walkEntries c w p k es s = some s' → ∃ ds, Complete c S s s' ds ∧
    ∀ e ∈ es, (IsDir c.root (p ++ [e.1]) → S (p ++ [e.1]) ∨ p ++ [e.1] ∈ ds) ∧ (∀ t, IsLink c.root (p ++ [e.1]) t → S t ∨ t ∈ ds)
  | [], all, p, k, s, s', S, hv, hes, hx, hk, h => by
    simp only [walkEntries, Option.some.injEq] at h; subst h
    exact ⟨[], ⟨by simp, fun v h => .inl (hv v h), by simp⟩, by simp⟩
  | (name, x) :: es, all, p, k, s, s', S, hv, hes, hx, hk, h => by
    simp only [walkEntries] at h
    obtain ⟨s1, h1, h2⟩ := Option.bind_eq_some_iff.1 h
    have hat : c.root.at (p ++ [name]) = some x := by
      rw [at_append, hx, Option.bind_some, at_cons, entry_of_mem (hd _ _ hx) (hes (name, x) (by simp)), Option.bind_some, at_nil]
    obtain ⟨ds, ⟨k1, k2, k3⟩, k4, k5⟩ := walkNode_complete c hf hd hm w hw x (p ++ [name]) (k + 1) s s1 S hv hat (by simp; omega) h1
    obtain ⟨ds', ⟨l1, l2, l3⟩, l4⟩ := walkEntries_complete c hf hd hm w hw es all p k s1 s' (fun x => S x ∨ x ∈ ds) k2 (fun e he => hes e (by simp [he])) hx hk h2
    have hS : ∀ x, ((S x ∨ x ∈ ds) ∨ x ∈ ds') → S x ∨ x ∈ ds ++ ds' := by
      rintro x ((h | h) | h)
      · exact .inl h
      · exact .inr (by simp [h])
      · exact .inr (by simp [h])
    refine ⟨ds ++ ds', ⟨by simp [l1, k1], fun v hv' => hS v (l2 v hv'), ?_⟩, ?_⟩
    · intro d hdd
      rcases List.mem_append.1 hdd with hdd | hdd
      · exact (k3 d hdd).mono (fun x hx => hS x (.inl hx))
      · exact (l3 d hdd).mono hS
    · intro e he
      rcases List.mem_cons.1 he with rfl | he
      · exact ⟨fun h => hS _ (.inl (.inr (k4 h))), fun t ht => hS _ (.inl (k5 t ht))⟩
      · exact ⟨fun h => hS _ ((l4 e he).1 h), fun t ht => hS _ ((l4 e he).2 t ht)⟩
end

theorem walker_complete (c : Config) (hf : c.followLinks = true) (hd : DistinctNames c.root) (hm : ∀ p, IsDir c.root p → p.length ≤ c.maxDepth)
    (h0 : c.maxDepth ≠ 0) (n : Nat) : ∀ t v (S : List Text → Prop) s', (∀ p ∈ v, S p) → walker c n t v = some s' → ∃ ds, t ∈ ds ∧ Complete c S ⟨[], v⟩ s' ds := by
  induction n with
  | zero => intro t v S s' _ h; cases h
  | succ n ih =>
    intro t v S s' hv h
    simp only [walker, if_neg h0] at h
    split at h
    · rename_i es hes
      obtain ⟨ds, ⟨h1, h2, h3⟩, h4⟩ := walkEntries_complete c hf hd hm (walker c n) ih es es t 0 ⟨c.find t, v⟩ s' (fun x => S x ∨ x = t) (fun p hp => .inl (hv p hp))
        (fun e he => he) hes (by simp) h
      have hS : ∀ x, ((S x ∨ x = t) ∨ x ∈ ds) → S x ∨ x ∈ t :: ds := by
        rintro x ((h | rfl) | h)
        · exact .inl h
        · exact .inr (by simp)
        · exact .inr (by simp [h])
      refine ⟨t :: ds, by simp, by simp [h1], fun v hv' => hS v (h2 v hv'), ?_⟩
      intro d hdd
      rcases List.mem_cons.1 hdd with rfl | hdd
      · refine ClosedAt.mono (S := fun x => (S x ∨ x = d) ∨ x ∈ ds) ?_ hS
        constructor
        · intro name ⟨es', hn⟩
          have hn' := hn
          rw [at_append, hes, Option.bind_some, at_cons] at hn'
          obtain ⟨z, hz, _⟩ := Option.bind_eq_some_iff.1 hn'
          exact (h4 (name, z) (entry_mem hz)).1 ⟨es', hn⟩
        · intro name t hn
          have hn' : c.root.at (d ++ [name]) = some (.link t) := hn
          rw [at_append, hes, Option.bind_some, at_cons] at hn'
          obtain ⟨z, hz, _⟩ := Option.bind_eq_some_iff.1 hn'
          exact (h4 (name, z) (entry_mem hz)).2 t hn
      · exact (h3 d hdd).mono hS
    · rename_i hnd
      injection h with h; subst h
      refine ⟨[t], by simp, by simp, fun p hp => .inl (hv p hp), ?_⟩
      intro d hdd
      rw [List.mem_singleton] at hdd; subst hdd
      have : ∀ name, c.root.at (d ++ [name]) = none := by
        intro name
        rw [at_append]
        cases hx : c.root.at d with
        | none => rfl
        | some x =>
          cases x with
          | dir es => exact (hnd es hx).elim
          | file => rfl
          | link t => rfl
      constructor
      · rintro name ⟨es, hes⟩; rw [this] at hes; cases hes
      · intro name t ht; unfold IsLink at ht; rw [this] at ht; cases ht

/-! ## Termination -/

mutual
theorem walkNode_ends (c : Config) (hd : DistinctNames c.root) (w : List Text → List (List Text) → Option St) (r : List Text)
    (hw : ∀ q t v, IsLink c.root (r ++ q) t → (w t v).isSome) : ∀ (x : Node) (q : List Text) (k : Nat) (s : St), c.root.at (r ++ q) = some x →
    (walkNode c w (r ++ q) k x s).isSome
  | .file, q, k, s, _ => rfl
  | .link t, q, k, s, hx => by
    simp only [walkNode]
    split
    · simpa using hw q t s.visited hx
    · rfl
  | .dir es, q, k, s, hx => by
    simp only [walkNode]
    split
    · rfl
    · exact walkEntries_ends c hd w r hw es es q k _ (fun e he => he) hx
theorem walkEntries_ends (c : Config) (hd : DistinctNames c.root) (w : List Text → List (List Text) → Option St) (r : List Text)
    (hw : ∀ q t v, IsLink c.root (r ++ q) t → (w t v).isSome) : ∀ (es all : List (Text × Node)) (q : List Text) (k : Nat) (s : St), (∀ e ∈ es, e ∈ all) →
    c.root.at (r ++ q) = some (.dir all) → (walkEntries c w (r ++ q) k es s).isSome
  | [], all, q, k, s, _, _ => rfl
  | (name, x) :: es, all, q, k, s, hes, hx => by
    have hat : c.root.at (r ++ (q ++ [name])) = some x := by
      rw [← List.append_assoc, at_append, hx, Option.bind_some, at_cons, entry_of_mem (hd _ _ hx) (hes (name, x) (by simp)), Option.bind_some, at_nil]
    have h1 := walkNode_ends c hd w r hw x (q ++ [name]) (k + 1) s hat
    rw [← List.append_assoc] at h1
    obtain ⟨s1, h1⟩ := Option.isSome_iff_exists.1 h1
    simp only [walkEntries, h1, Option.bind_some]
    exact walkEntries_ends c hd w r hw es all q k s1 (fun e he => hes e (by simp [he])) hx
end

theorem walker_ends (c : Config) (hd : DistinctNames c.root) (rank : List Text → Nat) (hrank : ∀ r q t, IsLink c.root (r ++ q) t → rank t < rank r)
    (n : Nat) : ∀ r v, rank r < n → (walker c n r v).isSome := by
  induction n with
  | zero => intro r v h; omega
  | succ n ih =>
    intro r v h
    simp only [walker]
    split
    · rfl
    · split
      · rename_i es hes
        have := walkEntries_ends c hd (walker c n) r (fun q t v' hl => ih t v' (by have := hrank r q t hl; omega)) es es [] 0 ⟨c.find r, v⟩ (fun e he => he)
          (by simpa using hes)
        simpa using this
      · rfl

end Verif.Lemmas
