import Verif.Spec.DiskSpec
import Verif.Lemmas.Path

/-!
Lemmas on disks and paths.
-/

namespace Verif.Lemmas
open Verif Verif.Text Verif.OsFuncs Verif.Spec

theorem walk_append (d : Disk) (cur : Place) (a b : List Text) :
    walk d cur (a ++ b) = match walk d cur a with
      | .ok q => walk d q b
      | .error e => .error e := by
  induction a generalizing cur with
  | nil => rfl
  | cons e a ih =>
    simp only [List.cons_append, walk]
    cases d cur with
    | none => rfl
    | some i =>
      cases i with
      | file => rfl
      | dir m => exact ih _

theorem next_name (cur : Place) (e : Text) (h : FileName e) : next cur e = cur ++ [e] := by
  unfold next
  rw [if_neg (fun h' => h'.elim h.1 h.2.1), if_neg (show ¬ e = ['.', '.'] from h.2.2.1)]

theorem walk_place {d : Disk} {cur : Place} {es : List Text} {q : Place} (hn : Names es) (h : walk d cur es = .ok q) : q = cur ++ es := by
  induction es generalizing cur with
  | nil => simp only [walk, Except.ok.injEq] at h; simp [h]
  | cons e es ih =>
    simp only [walk] at h
    cases hd : d cur with
    | none => rw [hd] at h; cases h
    | some i =>
      rw [hd] at h
      cases i with
      | file => cases h
      | dir m =>
        simp only at h
        rw [next_name _ _ (hn e (by simp))] at h
        have := ih (fun x hx => hn x (by simp [hx])) h
        simpa using this

theorem above {d : Disk} (h : DiskOk d) (q : Place) (e : Text) (es : List Text) (hq : d (q ++ e :: es) ≠ none) : IsFolder d q := by
  induction es generalizing q e with
  | nil => exact h.2 q e hq
  | cons x es ih =>
    obtain ⟨m, hm⟩ := ih (q ++ [e]) x (by simpa using hq)
    exact h.2 q e (by rw [hm]; exact Option.some_ne_none _)

theorem walk_exists {d : Disk} (h : DiskOk d) {cur : Place} {es : List Text} (hn : Names es) (hq : d (cur ++ es) ≠ none) : walk d cur es = .ok (cur ++ es) := by
  induction es generalizing cur with
  | nil => simp [walk]
  | cons e es ih =>
    obtain ⟨m, hm⟩ := above h cur e es hq
    simp only [walk, hm]
    rw [next_name _ _ (hn e (by simp)), ih (fun x hx => hn x (by simp [hx])) (by simpa using hq)]
    simp

theorem walk_in {d : Disk} (h : DiskOk d) {cur : Place} {es : List Text} {n : Text} (hn : Names (es ++ [n])) (hq : IsFolder d (cur ++ es)) :
    walk d cur (es ++ [n]) = .ok (cur ++ es ++ [n]) := by
  obtain ⟨m, hm⟩ := hq
  rw [walk_append, walk_exists h (fun x hx => hn x (by simp [hx])) (by rw [hm]; exact Option.some_ne_none _)]
  simp only [walk, hm]
  rw [next_name _ _ (hn n (by simp))]

theorem walk_out {d : Disk} {cur : Place} {es : List Text} {n : Text} (hn : Names es) (hq : ¬ IsFolder d (cur ++ es)) :
    ∃ e, walk d cur (es ++ [n]) = .error e := by
  rw [walk_append]
  cases hw : walk d cur es with
  | error e => exact ⟨e, rfl⟩
  | ok q =>
    rw [walk_place hn hw]
    simp only [walk]
    cases hd : d (cur ++ es) with
    | none => exact ⟨_, rfl⟩
    | some i =>
      cases i with
      | file => exact ⟨_, rfl⟩
      | dir m => exact absurd ⟨m, hd⟩ hq

theorem splitC_join {l : List Text} (hl : l ≠ []) (hn : ∀ e ∈ l, '/' ∉ e) : splitC '/' (join ['/'] l) = l := by
  induction l with
  | nil => exact absurd rfl hl
  | cons e l ih =>
    cases l with
    | nil => exact splitC_of_not_mem (hn e (by simp))
    | cons x l =>
      rw [join_cons_cons, List.append_assoc, List.singleton_append, splitC_cut, splitC_of_not_mem (hn e (by simp)), ih (by simp) (fun y hy => hn y (by simp [hy]))]
      rfl

theorem names_slash {l : List Text} (h : Names l) : ∀ e ∈ l, '/' ∉ e := fun e he => (h e he).2.2.2

theorem names_isElem {l : List Text} (h : Names l) : ∀ e ∈ l, IsElem e := fun e he => ⟨(h e he).1, (h e he).2.1, (h e he).2.2.2⟩

theorem join_head {l : List Text} (hl : l ≠ []) (h : Names l) : ∃ c s, join ['/'] l = c :: s ∧ c ≠ '/' := by
  cases l with
  | nil => exact absurd rfl hl
  | cons e l =>
    obtain ⟨h1, _, _, h4⟩ := h e (by simp)
    cases e with
    | nil => exact absurd rfl h1
    | cons c e =>
      have hc : c ≠ '/' := fun hc => h4 (by simp [hc])
      cases l with
      | nil => exact ⟨c, e, rfl, hc⟩
      | cons x l => exact ⟨c, e ++ ['/'] ++ join ['/'] (x :: l), by rw [join_cons_cons]; rfl, hc⟩

/-- The folder from which an ordinary path is followed. -/
def base (cwd : Place) (abs : Bool) : Place := if abs then [] else cwd

theorem locate_ordinary {d : Disk} (h : DiskOk d) (cwd : Place) (abs : Bool) {l : List Text} (hl : l ≠ []) (hn : Names l) :
    locate d cwd (ordinary abs l) = walk d (base cwd abs) l := by
  obtain ⟨c, s, e, hc⟩ := join_head hl hn
  unfold locate
  cases abs with
  | true =>
    have e1 : ordinary true l = '/' :: join ['/'] l := rfl
    rw [e1, if_neg (by simp), isAbs_cons, if_pos rfl]
    have : splitC '/' ('/' :: join ['/'] l) = [] :: l := by
      have := splitC_cut '/' [] (join ['/'] l)
      rw [List.nil_append, splitC_join hl (names_slash hn)] at this
      rw [this]; rfl
    rw [this]
    obtain ⟨m, hm⟩ := h.1
    simp only [walk, hm]
    rfl
  | false =>
    have e1 : ordinary false l = join ['/'] l := rfl
    have hna : Path.isAbs (c :: s) = false := by simp [Path.isAbs, hasPrefix, dropPrefix?, Ne.symm hc]
    rw [e1, if_neg (by rw [e]; simp), splitC_join hl (names_slash hn), e, hna]
    rfl

theorem resolve_of_names (abs : Bool) {l : List Text} (h : Names l) : Path.resolve abs [] l = l := by
  rw [resolve_names abs [] l (fun e he => (h e he).2.2.1)]
  rfl

theorem dirName_ordinary (abs : Bool) {l : List Text} {n : Text} (hn : Names (l ++ [n])) :
    dirName (ordinary abs (l ++ [n])) = if l = [] then (if abs then ['/'] else ['.']) else ordinary abs l := by
  have hl : Names l := fun x hx => hn x (by simp [hx])
  obtain ⟨_, _, _, hs⟩ := hn n (by simp)
  have cut : ∀ a : Text, ((a ++ '/' :: n).reverse.dropWhile (· ≠ '/')).reverse = a ++ ['/'] := by
    intro a
    rw [List.reverse_append, List.reverse_cons, List.append_assoc, List.dropWhile_append_of_pos (by simp only [List.mem_reverse, ne_eq, decide_eq_true_eq]; intro c hc e; exact hs (e ▸ hc))]
    simp
  by_cases h0 : l = []
  · subst h0
    unfold dirName
    cases abs with
    | true =>
      have : ordinary true ([] ++ [n]) = [] ++ '/' :: n := rfl
      rw [this, cut]
      decide
    | false =>
      have : ordinary false ([] ++ [n]) = n := rfl
      rw [this]
      have : (n.reverse.dropWhile (· ≠ '/')) = [] := by
        have hs' : ∀ c ∈ n.reverse, (decide (c ≠ '/')) = true := by
          simp only [List.mem_reverse, ne_eq, decide_eq_true_eq]
          intro c hc e
          exact hs (e ▸ hc)
        have := List.dropWhile_append_of_pos (l₂ := []) hs'
        simpa using this
      rw [this]
      decide
  · have hj : ∀ l : List Text, l ≠ [] → join ['/'] (l ++ [n]) = join ['/'] l ++ '/' :: n := by
      intro l
      induction l with
      | nil => exact fun h => absurd rfl h
      | cons e l ih =>
        intro _
        cases l with
        | nil => simp [join_cons_cons, join]
        | cons x l =>
          have := ih (by simp)
          rw [List.cons_append, List.cons_append, join_cons_cons, join_cons_cons, ← List.cons_append, this]
          simp
    rw [if_neg h0]
    unfold dirName
    obtain ⟨c, s, e, hc⟩ := join_head h0 hl
    cases abs with
    | true =>
      have : ordinary true (l ++ [n]) = ('/' :: join ['/'] l) ++ '/' :: n := by
        show '/' :: join ['/'] (l ++ [n]) = _
        rw [hj l h0]; rfl
      rw [this, cut]
      unfold Path.clean
      have ha : Path.isAbs (('/' :: join ['/'] l) ++ ['/']) = true := isAbs_cons _
      rw [ha]
      have : Path.elems (('/' :: join ['/'] l) ++ ['/']) = l := by
        have := elems_cut ('/' :: join ['/'] l) []
        rw [elems_nil, List.append_nil, elems_slash, elems_join (names_isElem hl)] at this
        exact this
      rw [this, resolve_of_names _ hl]
      rfl
    | false =>
      have : ordinary false (l ++ [n]) = join ['/'] l ++ '/' :: n := hj l h0
      rw [this, cut]
      unfold Path.clean
      have ha : Path.isAbs (join ['/'] l ++ ['/']) = false := by
        rw [e]; simp [Path.isAbs, hasPrefix, dropPrefix?, Ne.symm hc]
      rw [ha]
      have : Path.elems (join ['/'] l ++ ['/']) = l := by
        have := elems_cut (join ['/'] l) []
        rw [elems_nil, List.append_nil, elems_join (names_isElem hl)] at this
        exact this
      rw [this, resolve_of_names _ hl]
      show (if l = [] then _ else _) = _
      rw [if_neg h0]
      rfl

theorem locate_folder {d : Disk} (h : DiskOk d) (cwd : Place) (hc : IsFolder d cwd) (abs : Bool) {l : List Text} {n : Text} (hn : Names (l ++ [n])) :
    locate d cwd (dirName (ordinary abs (l ++ [n]))) = walk d (base cwd abs) l := by
  rw [dirName_ordinary abs hn]
  by_cases h0 : l = []
  · subst h0
    rw [if_pos rfl]
    cases abs with
    | true =>
      obtain ⟨m, hm⟩ := h.1
      show walk d [] [[], []] = _
      simp [walk, hm, next, base]
    | false =>
      obtain ⟨m, hm⟩ := hc
      show walk d cwd [['.']] = _
      simp [walk, hm, next, base]
  · rw [if_neg h0, locate_ordinary h cwd abs h0 (fun x hx => hn x (by simp [hx]))]

theorem diskOk_put {d : Disk} (h : DiskOk d) {q : Place} {e : Text} (hq : IsFolder d q) (hd : ∀ m, d (q ++ [e]) ≠ some (.dir m)) (i : Item) :
    DiskOk (put d (q ++ [e]) i) := by
  have keep : ∀ x, IsFolder d x → IsFolder (put d (q ++ [e]) i) x := by
    rintro x ⟨m, hm⟩
    refine ⟨m, ?_⟩
    unfold put
    rw [if_neg (fun hx : x = q ++ [e] => hd m (hx ▸ hm)), hm]
  refine ⟨keep _ h.1, fun x y hx => ?_⟩
  unfold put at hx
  by_cases hxy : x ++ [y] = q ++ [e]
  · have : x = q := (List.append_inj' hxy rfl).1
    exact keep _ (this ▸ hq)
  · rw [if_neg hxy] at hx
    exact keep _ (h.2 x y hx)

/-- The places that a walk goes through are folders, and other places do not matter. -/
theorem walk_put {d : Disk} {q : Place} (hq : ¬ IsFolder d q) (i : Item) {cur r : Place} {es : List Text} (h : walk d cur es = .ok r) : walk (put d q i) cur es = .ok r := by
  induction es generalizing cur with
  | nil => exact h
  | cons e es ih =>
    simp only [walk] at h ⊢
    cases hd : d cur with
    | none => rw [hd] at h; cases h
    | some j =>
      rw [hd] at h
      cases j with
      | file => cases h
      | dir m =>
        have : put d q i cur = some (.dir m) := by
          unfold put
          rw [if_neg (fun e : cur = q => hq (e ▸ ⟨m, hd⟩)), hd]
        rw [this]
        exact ih h

theorem locate_put {d : Disk} {q : Place} (hq : ¬ IsFolder d q) (i : Item) {cwd r : Place} {p : Text} (h : locate d cwd p = .ok r) : locate (put d q i) cwd p = .ok r := by
  unfold locate at h ⊢
  split at h
  · cases h
  · rename_i hp
    rw [if_neg hp]
    exact walk_put hq i h

end Verif.Lemmas
