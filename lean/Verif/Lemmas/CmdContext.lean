import Verif.Model.CmdContext
import Verif.Spec.SourceSpec
import Verif.Spec.FileSpec
import Verif.Lemmas.Files
import Verif.Lemmas.Strings
/-!
# Lemmas about the context of the command line
-/

namespace Verif.Lemmas
open Verif Text Spec CmdContext

variable {V : Type}

/-- The value of a key in a context that may be nil. -/
def valueIn (ctx : Option (GoMap V)) (k : Text) : Option V := (ctx.getD []).get? k

theorem foldSet_get (d m : GoMap V) (k : Text) :
    (d.foldl (fun (m : GoMap V) e => m.set e.1 e.2) m).get? k = ((d.foldl (fun (m : GoMap V) e => m.set e.1 e.2) ([] : GoMap V)).get? k).or (m.get? k) := by
  induction d generalizing m with
  | nil => simp [GoMap.get?_nil]
  | cons e d ih =>
    rw [List.foldl_cons, List.foldl_cons, ih, ih (GoMap.set ([] : GoMap V) e.1 e.2), Option.or_assoc]
    congr 1
    rw [GoMap.get?_set, GoMap.get?_set]
    split <;> simp

theorem setAll_value (ctx : Option (GoMap V)) (d : GoMap V) (k : Text) : valueIn (setAll ctx d) k = (valueIn (setAll none d) k).or (valueIn ctx k) := by
  unfold valueIn setAll
  simp only [Option.getD_some, Option.getD_none]
  exact foldSet_get d _ k

theorem setAll_wf {d : GoMap V} (hd : d.WF) (k : Text) : valueIn (setAll none d) k = d.get? k := by
  unfold valueIn setAll
  simp only [Option.getD_some, Option.getD_none]
  induction d with
  | nil => rfl
  | cons e d ih =>
    obtain ⟨k0, v0⟩ := e
    rw [List.foldl_cons, foldSet_get, ih hd.tail, GoMap.get?_set, GoMap.get?_cons]
    by_cases h : k0 = k
    · subst h
      have : GoMap.get? d k0 = none := GoMap.get?_eq_none_iff.2 hd.head
      simp [this]
    · simp [h]

/-- What one step does whatever the context. -/
inductive Effect (env : Env V) (im : Bool) (nv : FileDef V) : Prop
  | sets (d : GoMap V) (h : ∀ ctx, step env im ctx nv = .ok (setAll ctx d))
  | keeps (h : ∀ ctx, step env im ctx nv = .ok ctx)
  | fails (h : ∀ ctx, step env im ctx nv = .error)
  | panics (h : ∀ ctx, step env im ctx nv = .panic)

theorem step_effect (env : Env V) (im : Bool) (nv : FileDef V) : Effect env im nv := by
  by_cases h1 : env.isNil nv.value = true
  · exact .panics fun ctx => by simp [step, h1]
  · by_cases h2 : (env.str nv.value).getD [] = []
    · exact .sets [(nv.name, nv.value)] fun ctx => by simp [step, h1, h2]
    · generalize hl : (if (env.str nv.value).getD [] = ['-'] then loadStdin env nv else load env nv ((env.str nv.value).getD [])) = l
      cases l with
      | dict d => exact .sets d fun ctx => by simp only [step, h1, h2, hl, if_false]; rfl
      | nothing => exact .keeps fun ctx => by simp only [step, h1, h2, hl, if_false]; rfl
      | missing =>
        cases im with
        | true => exact .keeps fun ctx => by simp only [step, h1, h2, hl, if_false]; rfl
        | false => exact .fails fun ctx => by simp only [step, h1, h2, hl, if_false]; rfl
      | failed => exact .fails fun ctx => by simp only [step, h1, h2, hl, if_false]; rfl

/-- What a list of steps does whatever the context. -/
inductive Overlay (env : Env V) (im : Bool) (nvs : List (FileDef V)) : Prop
  | over (c : Option (GoMap V)) (h0 : run env im none nvs = .ok c)
      (h : ∀ ctx, ∃ c', run env im ctx nvs = .ok c' ∧ ∀ k, valueIn c' k = (valueIn c k).or (valueIn ctx k))
  | fails (h : ∀ ctx, run env im ctx nvs = .error)
  | panics (h : ∀ ctx, run env im ctx nvs = .panic)

theorem run_overlay (env : Env V) (im : Bool) (nvs : List (FileDef V)) : Overlay env im nvs := by
  induction nvs with
  | nil => exact .over none rfl fun ctx => ⟨ctx, rfl, fun k => by simp [valueIn]⟩
  | cons nv nvs ih =>
    cases step_effect env im nv with
    | fails h => exact .fails fun ctx => by simp [run, h]
    | panics h => exact .panics fun ctx => by simp [run, h]
    | keeps h =>
      have e : ∀ ctx, run env im ctx (nv :: nvs) = run env im ctx nvs := fun ctx => by simp [run, h]
      cases ih with
      | fails h' => exact .fails fun ctx => by rw [e, h']
      | panics h' => exact .panics fun ctx => by rw [e, h']
      | over c h0 h' => exact .over c (by rw [e, h0]) fun ctx => by rw [e]; exact h' ctx
    | sets d h =>
      have e : ∀ ctx, run env im ctx (nv :: nvs) = run env im (setAll ctx d) nvs := fun ctx => by simp [run, h]
      cases ih with
      | fails h' => exact .fails fun ctx => by rw [e, h']
      | panics h' => exact .panics fun ctx => by rw [e, h']
      | over c h0 h' =>
        obtain ⟨c1, hc1, hv1⟩ := h' (setAll none d)
        refine .over c1 (by rw [e, hc1]) fun ctx => ?_
        obtain ⟨c2, hc2, hv2⟩ := h' (setAll ctx d)
        refine ⟨c2, by rw [e, hc2], fun k => ?_⟩
        rw [hv2, hv1, setAll_value, Option.or_assoc]

theorem runDefs_append (env : Env V) (im : Bool) (a b : List (FileDef V)) (ctx : Option (GoMap V)) :
    run env im ctx (a ++ b) = (match run env im ctx a with | .ok c => run env im c b | .error => .error | .panic => .panic) := by
  induction a generalizing ctx with
  | nil => rfl
  | cons nv a ih =>
    simp only [List.cons_append, run]
    cases step env im ctx nv with
    | ok c => exact ih c
    | error => rfl
    | panic => rfl

/-- The definitions of one source. -/
def sourceDefs (env : Env V) : Source → List (FileDef V)
  | .ifExist f => [{ name := [], value := env.ofText f }]
  | .imported f => [{ name := [], value := env.ofText f, required := true }]
  | .var v => varDefs env v

theorem allDefs_sources (env : Env V) (files ifs vars : List Text) :
    allDefs env files ifs vars = (ifs.map Source.ifExist ++ files.map Source.imported ++ vars.map Source.var).flatMap (sourceDefs env) := by
  unfold allDefs
  rw [List.flatMap_append, List.flatMap_append]
  congr 1
  · congr 1
    · induction ifs with
      | nil => rfl
      | cons x xs ih => rw [List.map_cons, List.map_cons, List.flatMap_cons, ih]; rfl
    · induction files with
      | nil => rfl
      | cons x xs ih => rw [List.map_cons, List.map_cons, List.flatMap_cons, ih]; rfl
  · induction vars with
    | nil => rfl
    | cons x xs ih => rw [List.flatMap_cons, ih, List.map_cons, List.flatMap_cons]; rfl

theorem lastOf_snoc {ds : List (GoMap V)} {k : Text} {o : Option V} (h : LastOf ds k o) (d : GoMap V) : LastOf (ds ++ [d]) k ((d.get? k).or o) := by
  cases hd : d.get? k with
  | some v => exact ⟨ds, d, [], by simp, hd, by simp⟩
  | none =>
    simp only [Option.none_or]
    cases o with
    | none =>
      intro d' h'
      rcases List.mem_append.1 h' with h' | h'
      · exact h d' h'
      · rw [List.mem_singleton.1 h']; exact hd
    | some v =>
      obtain ⟨a, e, b, rfl, h1, h2⟩ := h
      refine ⟨a, e, b ++ [d], by simp, h1, ?_⟩
      intro d' h'
      rcases List.mem_append.1 h' with h' | h'
      · exact h2 d' h'
      · rw [List.mem_singleton.1 h']; exact hd

/-- The dictionary of a result. -/
def contents : Outcome V → GoMap V
  | .ok ctx => ctx.getD []
  | _ => []

theorem run_sources (env : Env V) (im : Bool) (srcs : List Source) (ctx c : Option (GoMap V)) (ds : List (GoMap V)) (hds : ∀ k, LastOf ds k (valueIn ctx k))
    (h : run env im ctx (srcs.flatMap (sourceDefs env)) = .ok c) :
    (∀ s ∈ srcs, ∃ c', run env im none (sourceDefs env s) = .ok c') ∧
      ∀ k, LastOf (ds ++ srcs.map (fun s => contents (run env im none (sourceDefs env s)))) k (valueIn c k) := by
  induction srcs generalizing ctx ds with
  | nil =>
    simp only [List.flatMap_nil, run, Outcome.ok.injEq] at h
    subst h
    exact ⟨by simp, by simpa using hds⟩
  | cons s srcs ih =>
    rw [List.flatMap_cons, runDefs_append] at h
    cases run_overlay env im (sourceDefs env s) with
    | fails h' => rw [h'] at h; cases h
    | panics h' => rw [h'] at h; cases h
    | over c0 h0 h' =>
      obtain ⟨c1, hc1, hv⟩ := h' ctx
      rw [hc1] at h
      dsimp only at h
      have hc : contents (run env im none (sourceDefs env s)) = c0.getD [] := by rw [h0]; rfl
      obtain ⟨k1, k2⟩ := ih c1 (ds ++ [c0.getD []]) (fun k => by rw [hv k]; exact lastOf_snoc (hds k) _) h
      refine ⟨?_, ?_⟩
      · intro x hx
        rcases List.mem_cons.1 hx with rfl | hx
        · exact ⟨c0, h0⟩
        · exact k1 x hx
      · intro k
        have := k2 k
        rw [List.map_cons, hc]
        simpa using this

theorem run_sources_ok (env : Env V) (im : Bool) (srcs : List Source) (ctx : Option (GoMap V))
    (h : ∀ s ∈ srcs, ∃ c', run env im none (sourceDefs env s) = .ok c') : ∃ c, run env im ctx (srcs.flatMap (sourceDefs env)) = .ok c := by
  induction srcs generalizing ctx with
  | nil => exact ⟨ctx, rfl⟩
  | cons s srcs ih =>
    rw [List.flatMap_cons, runDefs_append]
    obtain ⟨c', hc'⟩ := h s (by simp)
    cases run_overlay env im (sourceDefs env s) with
    | fails h' => rw [h'] at hc'; cases hc'
    | panics h' => rw [h'] at hc'; cases hc'
    | over c0 h0 h' =>
      obtain ⟨c1, hc1, _⟩ := h' ctx
      rw [hc1]
      exact ih c1 (fun s hs => h s (by simp [hs]))

/-! ## Variables -/

theorem split_equal {name value : Text} (h : '=' ∉ name) : Strings.split2 (name ++ '=' :: value) ['='] = some (name, value) := by
  have hi : index? ['='] (name ++ '=' :: value) = some name.length := by
    rw [Verif.Strings.index?_some]
    refine ⟨⟨name, value, by simp, rfl⟩, ?_⟩
    rintro j hj ⟨a, b, hab, rfl⟩
    have h1 := congrArg (fun t : Text => t[a.length]?) hab
    simp only [List.append_assoc, List.cons_append, List.nil_append, List.getElem?_append_right (Nat.le_refl _), Nat.sub_self, List.getElem?_cons_zero] at h1
    rw [List.getElem?_append_left hj] at h1
    exact h (List.mem_of_getElem? h1)
  unfold Strings.split2
  rw [if_neg (by simp), hi]
  simp

theorem split_none {v : Text} (h : '=' ∉ v) : Strings.split2 v ['='] = some (v, []) := by
  have hi : index? ['='] v = none := by
    rw [Verif.Strings.index?_none]
    rintro i ⟨a, b, rfl, _⟩
    exact h (by simp)
  unfold Strings.split2
  rw [if_neg (by simp), hi]

/-! ## Names of files -/

theorem getLastD_splitC {d n : Text} (hd : FolderPart d) (hn : '/' ∉ n) : (splitC '/' (d ++ n)).getLastD [] = n := by
  rcases hd with rfl | ⟨d', rfl⟩
  · rw [List.nil_append, splitC_of_not_mem hn]; rfl
  · rw [show d' ++ T "/" ++ n = d' ++ '/' :: n by simp [T], splitC_cut, splitC_of_not_mem hn]
    simp [List.getLastD_eq_getLast?]

theorem base_name {d n : Text} (hd : FolderPart d) (hn : FileName n) : base (d ++ n) = n := by
  obtain ⟨h1, _, _, h4⟩ := hn
  have hne : d ++ n ≠ [] := by simp [h1]
  have hrev : (n.reverse ++ d.reverse).dropWhile (· == '/') = n.reverse ++ d.reverse := by
    cases hr : n.reverse with
    | nil => rw [List.reverse_eq_nil_iff] at hr; exact absurd hr h1
    | cons c r =>
      rw [List.cons_append, List.dropWhile_cons, if_neg]
      intro hc
      have : c = '/' := by simpa using hc
      apply h4
      rw [← List.mem_reverse, hr, this]; simp
  unfold base
  rw [if_neg hne]
  dsimp only
  rw [List.reverse_append, hrev, ← List.reverse_append, List.reverse_reverse, if_neg hne]
  exact getLastD_splitC hd h4

theorem title_name {d a e : Text} (hd : FolderPart d) (hn : FileName (a ++ e)) (he : NameExt a e) : title (d ++ (a ++ e)) = a := by
  unfold title
  rw [base_name hd hn]
  have hext : Content.ext (d ++ (a ++ e)) = e := by
    rcases hd with rfl | ⟨d', rfl⟩
    · have := nameExt_ext he hn.2.2.2 [] (by simp)
      simpa [join] using this
    · have := nameExt_ext he hn.2.2.2 (splitC '/' d') (fun x hx => splitC_no_sep '/' d' x hx)
      rw [show d' ++ T "/" ++ (a ++ e) = join ['/'] (splitC '/' d' ++ [a ++ e]) from ?_]
      · exact this
      · have h2 : join ['/'] (splitC '/' (d' ++ '/' :: (a ++ e))) = d' ++ '/' :: (a ++ e) := join_splitC _ _
        rw [splitC_cut, splitC_of_not_mem hn.2.2.2] at h2
        rw [h2]; simp [T]
  rw [hext, trimSuffix_append]

end Verif.Lemmas
