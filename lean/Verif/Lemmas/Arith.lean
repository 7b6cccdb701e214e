import Verif.Spec.ArithSpec
import Verif.Lemmas.DictOps

/-!
Lemmas for C84: how lists of values are read as lists of numbers.
-/

namespace Verif.Lemmas
open Verif Verif.Text Verif.Value Verif.Arith Verif.Spec Verif.Numbers

theorem mapM_nums {N : Nums} {vs : List Value} {xs : List N.F} (h : AreNums N vs xs) : vs.mapM (toFloat N) = some xs := by
  induction h with
  | nil => rfl
  | cons hv _ ih => rw [List.mapM_cons]; unfold toFloat at *; rw [hv, ih]; rfl

theorem nums_mapM {N : Nums} {vs : List Value} : ∀ {xs : List N.F}, vs.mapM (toFloat N) = some xs → AreNums N vs xs := by
  induction vs with
  | nil => intro xs h; cases h; exact .nil
  | cons v vs ih =>
    intro xs h
    rw [List.mapM_cons] at h
    cases hv : toFloat N v with
    | none => rw [hv] at h; cases h
    | some x =>
      rw [hv] at h
      cases hs : vs.mapM (toFloat N) with
      | none => rw [hs] at h; cases h
      | some ys => rw [hs] at h; cases h; exact .cons hv (ih hs)

theorem mapM_not {N : Nums} {vs : List Value} {v : Value} (hv : v ∈ vs) (hn : NotNum N v) : vs.mapM (toFloat N) = none := by
  cases h : vs.mapM (toFloat N) with
  | none => rfl
  | some xs =>
    exfalso
    have := nums_mapM h
    clear h
    induction this with
    | nil => cases hv
    | cons hx _ ih =>
      rcases List.mem_cons.mp hv with rfl | hv
      · exact hn _ hx
      · exact ih hv

theorem notNum_iff {N : Nums} {v : Value} : NotNum N v ↔ toFloat N v = none := by
  unfold NotNum IsNum toFloat
  cases N.parse (sprint v) with
  | none => simp
  | some x => simp

theorem sprint_list_head (l : List Value) : ∃ t, sprint (.list l) = '[' :: t := by
  rw [sprint]; exact ⟨_, rfl⟩

theorem notNum_list {N : Nums} (hN : Reads N) (l : List Value) : NotNum N (.list l) := by
  obtain ⟨t, ht⟩ := sprint_list_head l
  intro x hx
  unfold IsNum at hx
  rw [ht, hN.list] at hx
  cases hx

theorem notNum_nil {N : Nums} (hN : Reads N) : NotNum N .nil := by
  intro x hx
  unfold IsNum at hx
  have : sprint .nil = '<' :: T "nil>" := rfl
  rw [this, hN.nil] at hx
  cases hx

theorem notNum_dict {N : Nums} (hN : Reads N) (d) : NotNum N (.dict d) := by
  intro x hx
  unfold IsNum at hx
  have : ∃ t, sprint (.dict d) = 'd' :: t := by rw [sprint]; exact ⟨_, rfl⟩
  obtain ⟨t, ht⟩ := this
  rw [ht, hN.dict] at hx
  cases hx

theorem asList_num {N : Nums} (hN : Reads N) {v : Value} {x : N.F} (h : IsNum N v x) : asList v = [v] := by
  cases v with
  | list l => exact absurd h (notNum_list hN l x)
  | nil => exact absurd h (notNum_nil hN x)
  | _ => rfl

theorem clone_num {N : Nums} (hN : Reads N) {v : Value} {x : N.F} (h : IsNum N v x) : ListOps.clone [v] = [v] := by
  refine DictOps.clone_eq_self fun k e => ?_
  simp only [List.cons.injEq, and_true] at e
  subst e
  exact notNum_list hN k x h

theorem convertArgs_many (a b : Value) (l : List Value) : convertArgs (a :: b :: l) = a :: b :: l := rfl

theorem clone_many (a b : Value) (l : List Value) : ListOps.clone (a :: b :: l) = a :: b :: l :=
  DictOps.clone_eq_self fun _ e => by cases e

theorem floats_many (N : Nums) (a b : Value) (l : List Value) : floats N (a :: b :: l) = (a :: b :: l).mapM (toFloat N) := by
  unfold floats
  rw [convertArgs_many, clone_many]

/-- A list of numbers is read as it is. -/
theorem floats_nums {N : Nums} (hN : Reads N) {vs : List Value} {xs : List N.F} (h : AreNums N vs xs) : floats N vs = some xs := by
  cases h with
  | nil => rfl
  | cons hv hs =>
    cases hs with
    | nil =>
      unfold floats
      show (ListOps.clone (asList _)).mapM _ = _
      rw [asList_num hN hv, clone_num hN hv]
      exact mapM_nums (.cons hv .nil)
    | cons hw hs =>
      rw [floats_many]
      exact mapM_nums (.cons hv (.cons hw hs))

theorem convertArgs_nums {N : Nums} (hN : Reads N) {vs : List Value} {xs : List N.F} (h : AreNums N vs xs) : convertArgs vs = vs := by
  cases h with
  | nil => rfl
  | cons hv hs =>
    cases hs with
    | nil => exact asList_num hN hv
    | cons hw hs => rfl

theorem floats_not {N : Nums} {a b : Value} {l : List Value} {v : Value} (hv : v ∈ a :: b :: l) (hn : NotNum N v) :
    floats N (a :: b :: l) = none := by
  rw [floats_many]; exact mapM_not hv hn

/-- A list with something that is not a number, unless it only has a list. -/
theorem floats_ordinary {N : Nums} {l : List Value} (hl : NotNested l) (hnil : l ≠ [.nil]) {v : Value} (hv : v ∈ l) (hn : NotNum N v) : floats N l = none := by
  cases l with
  | nil => cases hv
  | cons a l =>
    cases l with
    | nil =>
      unfold floats
      rw [List.mem_singleton] at hv
      subst hv
      show (ListOps.clone (asList _)).mapM _ = _
      have : asList v = [v] := by
        cases v with
        | list k => exact absurd rfl (hl k)
        | nil => exact absurd rfl hnil
        | _ => rfl
      rw [this, DictOps.clone_eq_self hl]
      exact mapM_not (List.mem_singleton.mpr rfl) hn
    | cons b l => exact floats_not hv hn

theorem foldl_total (N : Nums) (xs : List N.F) : ∀ s, xs.foldl N.plus s = total N s xs := by
  induction xs with
  | nil => intro s; rfl
  | cons x xs ih => intro s; exact ih _

theorem foldl_product (N : Nums) (xs : List N.F) : ∀ s, xs.foldl N.times s = product N s xs := by
  induction xs with
  | nil => intro s; rfl
  | cons x xs ih => intro s; exact ih _

theorem num_ne_nil {N : Nums} (hN : Reads N) {v : Value} {x : N.F} (h : IsNum N v x) : v ≠ .nil := by
  rintro rfl; exact notNum_nil hN x h

/-- `add` for a first argument that is not nil. -/
theorem add_eq (N : Nums) {a : Value} (ha : a ≠ .nil) (args : List Value) : add N a args =
    match floats N (convertArgs (a :: args)) with
    | some values => some (N.out (values.foldl N.plus (N.ofNat 0)))
    | none =>
      match addPair N (convertArgs (a :: args)) with
      | some r => some r
      | none => addOther (convertArgs (a :: args)) := by
  cases a with
  | nil => exact absurd rfl ha
  | _ => rfl

theorem multiply_eq (N : Nums) {a : Value} (ha : a ≠ .nil) (args : List Value) : multiply N a args =
    match floats N (convertArgs (a :: args)) with
    | some [] => some (.int 0)
    | some values => some (N.out (values.foldl N.times (N.ofNat 1)))
    | none => mulOther N (convertArgs (a :: args)) := by
  cases a with
  | nil => exact absurd rfl ha
  | _ => rfl

theorem length_nums {N : Nums} {vs : List Value} {xs : List N.F} (h : AreNums N vs xs) : vs.length = xs.length := by
  induction h with
  | nil => rfl
  | cons _ _ ih => rw [List.length_cons, List.length_cons, ih]

theorem processF_many {N : Nums} {xs : List N.F} (h : 2 ≤ xs.length) (f : N.F → N.F) : processF N xs f = .list (xs.map fun x => N.out (f x)) := by
  match xs, h with
  | _ :: _ :: _, _ => rfl

theorem convertArgs_list (l : List Value) : convertArgs [.list l] = l := rfl

theorem sprintAll_texts (ts : List Text) : sprintAll (ts.map .str) = ts.flatten := by
  induction ts with
  | nil => rfl
  | cons t ts ih =>
    cases ts with
    | nil => simp [sprintAll, sprint]
    | cons u ts =>
      simp only [List.map_cons, sprintAll, List.append_nil] at ih ⊢
      rw [ih]
      simp [sprint]

end Verif.Lemmas
