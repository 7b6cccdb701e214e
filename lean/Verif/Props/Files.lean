import Verif.Lemmas.Files
/-!
# C46: what is written for a template

`plan q` is what `ProcessTemplatesWithHandler` does once a file is rendered: the name it returns and the operations on files. The files after
an interruption are `run cwd fs (ops.take k)`, for any `k`.
-/

namespace Verif.Props
open Text Path Files Spec Lemmas

/-- The usual situation: the source and the target are the same absolute folder, and the template `d/n` is designated by an absolute path or
by a path relative to the folder where the process works, which is the source folder. -/
structure SameFolder (cwd : Text) (q : Request) (d n : Text) : Prop where
  works : isAbs cwd = true
  source : isAbs q.sourceFolder = true
  same : q.sourceFolder = q.targetFolder
  found : isAbs d = true ∨ cwd = q.sourceFolder
  path : q.template = d ++ n
  folder : FolderPart d

/-- The files are written somewhere else: the template `d/n` is designated by its path below the source folder. -/
structure OtherFolder (cwd : Text) (q : Request) (d n : Text) : Prop where
  works : isAbs cwd = true
  source : isAbs q.sourceFolder = true
  target : isAbs q.targetFolder = true
  differ : q.sourceFolder ≠ q.targetFolder
  path : q.template = q.sourceFolder ++ T "/" ++ d ++ n
  folder : FolderPart d
  below : ∀ e ∈ splitC '/' d, e ≠ T ".."

theorem SameFolder.spot {cwd d n : Text} {q : Request} (s : SameFolder cwd q d n) :
    ∃ folder, (∀ e ∈ folder, IsName e) ∧ (∀ k, FileName k → place cwd (d ++ k) = '/' :: join ['/'] (folder ++ [k])) ∧
      ∀ k, FileName k → getTargetFile (d ++ k) q.sourceFolder q.targetFolder = '/' :: join ['/'] (folder ++ [k]) := by
  obtain ⟨folder, h1, h2⟩ := place_name s.works s.folder
  refine ⟨folder, h1, fun k hk => h2 k (isName_iff.2 hk), fun k hk => ?_⟩
  rw [target_same s.source (s.same ▸ s.source) (by rw [s.same]), ← h2 k (isName_iff.2 hk)]
  rcases s.found with h | h
  · exact place_source (.inl (isAbs_append h))
  · exact place_source (.inr h)

/-- The result of a file is in the same folder, with the documented name. -/
theorem C46_name {cwd d n m r : Text} {q : Request} (s : SameFolder cwd q d n) (h : ResultName q.overwrite n m) (hr : resultName q = some r) :
    place cwd r = place cwd (d ++ m) := by
  obtain ⟨folder, h1, h2, h3⟩ := s.spot
  rw [result_place s.path s.folder h h1 h3 hr, h2 m (resultName_fileName h)]

/-- With another target folder, the result has the same relative path below it. -/
theorem C46_name_elsewhere {cwd d n m r : Text} {q : Request} (s : OtherFolder cwd q d n) (h : ResultName q.overwrite n m)
    (hr : resultName q = some r) : place cwd r = place cwd (q.targetFolder ++ T "/" ++ d ++ m) := by
  have hd : FolderPart (q.sourceFolder ++ T "/" ++ d) := by
    rcases s.folder with h | ⟨d', h⟩
    · exact .inr ⟨q.sourceFolder, by rw [h]; simp⟩
    · exact .inr ⟨q.sourceFolder ++ T "/" ++ d', by rw [h]; simp⟩
  have hd' : FolderPart (q.targetFolder ++ T "/" ++ d) := by
    rcases s.folder with h | ⟨d', h⟩
    · exact .inr ⟨q.targetFolder, by rw [h]; simp⟩
    · exact .inr ⟨q.targetFolder ++ T "/" ++ d', by rw [h]; simp⟩
  obtain ⟨folder, h1, h2⟩ := place_name s.works hd'
  have ha : isAbs (q.targetFolder ++ T "/" ++ d) = true := isAbs_append (isAbs_append s.target)
  rw [result_place s.path hd h h1 ?_ hr, h2 m (isName_iff.2 (resultName_fileName h))]
  intro k hk
  have e : q.sourceFolder ++ T "/" ++ d ++ k = q.sourceFolder ++ '/' :: (d ++ k) := by simp [T]
  have e' : q.targetFolder ++ T "/" ++ d ++ k = q.targetFolder ++ '/' :: (d ++ k) := by simp [T]
  rw [e, target_below s.source s.target ?_, ← e', ← h2 k (isName_iff.2 hk)]
  · unfold place; rw [if_pos (isAbs_append ha)]
  · intro x hx
    have hk' := isName_iff.2 hk
    rcases s.folder with h | ⟨d', h⟩
    · subst h
      rw [List.nil_append, elems_single hk'.1] at hx
      rw [List.mem_singleton.1 hx]; exact hk'.2
    · have ed : d ++ k = d' ++ '/' :: k := by rw [h]; simp [T]
      rw [ed, elems_cut, elems_single hk'.1] at hx
      rcases List.mem_append.1 hx with hx | hx
      · refine s.below x ?_
        rw [h]
        have : d' ++ T "/" = d' ++ '/' :: [] := by simp [T]
        rw [this, splitC_cut]
        exact List.mem_append_left _ (List.mem_filter.1 hx).1
      · rw [List.mem_singleton.1 hx]; exact hk'.2

/-- The target of a file is the file with the same path below the target folder, absolute or relative to the folder where the process works; a file with a
relative path keeps it. -/
theorem C46_target {cwd S D g : Text} (hc : isAbs cwd = true) (hS : isAbs S = true) (hD : D ≠ []) :
    ((∀ e ∈ splitC '/' g, e ≠ T "..") → place cwd (getTargetFile (S ++ T "/" ++ g) S D) = place cwd (D ++ T "/" ++ g)) ∧
    (isAbs g = false → place cwd (getTargetFile g S D) = place cwd (D ++ T "/" ++ g)) := by
  have e : ∀ a : Text, a ++ T "/" ++ g = a ++ '/' :: g := fun a => by simp [T]
  rw [e, e]
  refine ⟨fun h => target_any hc hS hD (fun x hx => h x (List.mem_filter.1 hx).1), fun h => ?_⟩
  unfold getTargetFile relative
  rw [if_pos hD, h]
  exact place_joinPath hc hD g

example : place (T "/work") (getTargetFile (T "/src/a/b.yml") (T "/src") (T "../out/./")) = T "/out/a/b.yml" := by
  have := (C46_target (cwd := T "/work") (S := T "/src") (D := T "../out/./") (g := T "a/b.yml") (by decide +kernel) (by decide +kernel) (by decide +kernel)).1 (by decide +kernel)
  exact this.trans (by decide +kernel)

/-- Nothing is saved for a template if, and only if, its result is blank and its name has no other extension. -/
theorem C46_saved {cwd d a e x : Text} {q : Request} (s : SameFolder cwd q d (a ++ e ++ x)) (hn : FileName (a ++ e)) (he : NameExt a e)
    (hx : IsTemplateExt x) (ht : ¬ T ".template" <:+ a ++ e) : resultName q = none ↔ (∀ c ∈ q.result, isSpace c = true) ∧ e = [] := by
  obtain ⟨folder, h1, _, h3⟩ := s.spot
  have hs : stripExt q.template = d ++ (a ++ e) := by
    rw [s.path, ← List.append_assoc d, stripExt_template hx (fun h => ht (suffix_name (ext_noslash (.inr rfl)) s.folder h))]
  have hT : isTemplate q.template = true := isTemplate_iff.2 ⟨x, hx, by rw [s.path, ← List.append_assoc d]; exact List.suffix_append _ _⟩
  unfold resultName
  simp only [hs, h3 _ hn, hT, if_true, nameExt_place he (isName_iff.2 hn) h1]
  rw [← trimSpace_eq_nil]
  constructor
  · intro h
    split at h
    · rename_i h'
      simpa using h'
    · split at h <;> simp at h
  · rintro ⟨h, h'⟩
    rw [if_pos (by rw [h, h']; rfl)]

/-- A file that is not a template and that rendering does not change is left alone, and its name is not returned. -/
theorem C46_untouched {q : Request} (h : q.sourceFolder = q.targetFolder) (hc : q.changed = false) (hs : q.stdout = false) : plan q = some ([], []) := by
  unfold plan
  split
  · rfl
  · rw [if_neg (by simp [hs]), if_pos ⟨h, hc⟩]

/-- A new file gets the permissions of its template, unless its result is a script: `#!`, a program and at most one argument on their line. -/
theorem C46_script {cwd d n m : Text} {q : Request} (s : OtherFolder cwd q d n) (h : ResultName q.overwrite n m) {r : Text} {ops : List Op}
    (hp : plan q = some (r, ops)) (hr : r ≠ []) (fs : FS) (hn : fs (place cwd (q.targetFolder ++ T "/" ++ d ++ m)) = none) :
    ∃ mode, run cwd fs ops (place cwd (q.targetFolder ++ T "/" ++ d ++ m)) = some ⟨q.result, mode⟩ ∧
      (ScriptText (trimSpace q.result) → mode = 0o755) ∧ (¬ ScriptText (trimSpace q.result) → mode = q.mode) := by
  rcases plan_cases hp with ⟨h0, _⟩ | ⟨hrn, _, _, rfl⟩
  · exact absurd h0 hr
  · have hpl := C46_name_elsewhere s h hrn
    have hw : writing q r = [.mkdirAll r] ++ [.create r (finalMode q), .fill r q.result] := by
      unfold writing
      rw [if_pos s.differ]
      simp [s.differ]
    refine ⟨finalMode q, ?_, fun h => ?_, fun h => ?_⟩
    · rw [hw, run_append, ← hpl]
      have : run cwd fs [.mkdirAll r] = fs := rfl
      rw [this, run_write]
      simp only [if_true]
      rw [hpl, hn]; rfl
    · simp [finalMode, isScript_iff.2 h]
    · simp [finalMode, mt isScript_iff.1 h]

/-- With another target folder, a file is written there even if rendering does not change it. -/
theorem C46_copied {q : Request} {n : Text} (h : q.sourceFolder ≠ q.targetFolder) (hs : q.stdout = false) (hr : resultName q = some n) :
    ∃ ops, plan q = some (n, ops) ∧ Op.fill n q.result ∈ ops := by
  refine ⟨writing q n, ?_, by simp [writing]⟩
  unfold plan
  rw [hr]
  simp only [hs, Bool.false_eq_true, if_false]
  rw [if_neg (fun h' => h h'.1)]

example : ScriptText (trimSpace (T "#! /bin/sh -e\necho")) ∧ ¬ ScriptText (trimSpace (T "#! a b c\n")) := by
  rw [← isScript_iff, ← isScript_iff]
  exact ⟨by decide +kernel, by decide +kernel⟩

/-- With the option that prints the results, no file is ever changed. -/
theorem C46_print {cwd r : Text} {q : Request} {ops : List Op} (h : plan q = some (r, ops)) (hs : q.stdout = true) (fs : FS) (k : Nat) :
    run cwd fs (ops.take k) = fs ∧ r = [] := by
  rcases plan_cases h with ⟨h1, h2 | ⟨_, h2⟩⟩ | ⟨_, h2, _⟩
  · subst h2; simp [run, h1]
  · subst h2
    refine ⟨?_, h1⟩
    funext x
    apply run_spares
    intro op hop
    rw [List.mem_singleton.1 (List.mem_of_mem_take hop)]
    trivial
  · rw [hs] at h2; simp at h2

/-- The only files that can be touched are the result, the template and its backup; whatever the moment of an interruption. -/
theorem C46_others {cwd r x : Text} {q : Request} {ops : List Op} (h : plan q = some (r, ops)) (fs : FS) (k : Nat) (h1 : x ≠ place cwd r)
    (h2 : x ≠ place cwd q.template) (h3 : x ≠ place cwd (q.template ++ T ".original")) : run cwd fs (ops.take k) x = fs x := by
  apply run_spares
  intro op hop
  have hop := List.mem_of_mem_take hop
  rcases plan_cases h with ⟨_, rfl | ⟨_, rfl⟩⟩ | ⟨_, _, _, rfl⟩
  · simp at hop
  · rw [List.mem_singleton.1 hop]; trivial
  · unfold writing at hop
    rcases List.mem_append.1 hop with hop | hop
    · rcases List.mem_append.1 hop with hop | hop
      · split at hop
        · rw [List.mem_singleton.1 hop]; trivial
        · split at hop
          · rw [List.mem_singleton.1 hop]; exact ⟨h2, h3⟩
          · simp at hop
      · rcases List.mem_cons.1 hop with rfl | hop
        · exact h1
        · rw [List.mem_singleton.1 hop]; exact h1
    · split at hop
      · rw [List.mem_singleton.1 hop]; exact h2
      · simp at hop

/-- A template (or any file, when the target is another folder) is never changed nor removed unless files are overwritten in place. -/
theorem C46_source {cwd r : Text} {q : Request} {ops : List Op} (h : plan q = some (r, ops)) (fs : FS) (k : Nat)
    (hd : place cwd r ≠ place cwd q.template)
    (hk : q.sourceFolder ≠ q.targetFolder ∨ (isTemplate q.template = true ∧ q.overwrite = false)) :
    run cwd fs (ops.take k) (place cwd q.template) = fs (place cwd q.template) := by
  apply run_spares
  intro op hop
  have hop := List.mem_of_mem_take hop
  rcases plan_cases h with ⟨_, rfl | ⟨_, rfl⟩⟩ | ⟨_, _, _, rfl⟩
  · simp at hop
  · rw [List.mem_singleton.1 hop]; trivial
  · unfold writing at hop
    rcases List.mem_append.1 hop with hop | hop
    · rcases List.mem_append.1 hop with hop | hop
      · split at hop
        · rw [List.mem_singleton.1 hop]; trivial
        · rename_i hsame
          rcases hk with hk | ⟨hk, _⟩
          · exact absurd hk hsame
          · rw [hk] at hop; simp at hop
      · rcases List.mem_cons.1 hop with rfl | hop
        · exact hd.symm
        · rw [List.mem_singleton.1 hop]; exact hd.symm
    · split at hop
      · rename_i hc
        simp at hc
        rcases hk with hk | ⟨_, hk⟩
        · exact absurd hc.2 hk
        · rw [hk] at hc; simp at hc
      · simp at hop

/-- The name that is returned is the name of a file that holds the result; when no name is returned, nothing is touched. -/
theorem C46_returned {cwd r : Text} {q : Request} {ops : List Op} (h : plan q = some (r, ops)) (ha : isAbs q.targetFolder = true)
    (hd : isTemplate q.template = true → place cwd r ≠ place cwd q.template) (fs : FS) :
    if r = [] then run cwd fs ops = fs else (run cwd fs ops (place cwd r)).map File.content = some q.result := by
  rcases plan_cases h with ⟨hr, ho⟩ | ⟨hr, _, _, rfl⟩
  · rw [if_pos hr]
    rcases ho with rfl | ⟨_, rfl⟩ <;> rfl
  · rw [if_neg (resultName_ne_nil ha hr)]
    unfold writing
    rw [run_append, run_append, run_write]
    generalize run cwd fs _ = fs'
    rw [run_spares]
    · simp
    · intro op hop
      split at hop
      · rename_i hc
        simp at hc
        rw [List.mem_singleton.1 hop]
        exact hd hc.1.1
      · simp at hop

theorem SameFolder.backup {cwd d n : Text} {q : Request} (s : SameFolder cwd q d n) (hn : FileName n) :
    place cwd (q.template ++ T ".original") ≠ place cwd q.template := by
  rw [s.path, List.append_assoc]
  refine place_ne s.works s.folder ?_ hn (by simp [T])
  refine ⟨by simp [T], ?_, ?_, ?_⟩
  · intro h; have := congrArg List.length h; simp [T] at this
  · intro h; have := congrArg List.length h; simp [T] at this
  · intro h
    rcases List.mem_append.1 h with h | h
    · exact hn.2.2.2 h
    · revert h; decide

theorem SameFolder.notTemplate {cwd d n : Text} {q : Request} (s : SameFolder cwd q d n) (hp : ∀ x, IsTemplateExt x → ¬ x <:+ n) :
    isTemplate q.template = false := by
  rw [Bool.eq_false_iff]
  intro h
  obtain ⟨x, hx, h⟩ := isTemplate_iff.1 h
  exact hp x hx (suffix_name (ext_noslash hx) s.folder (s.path ▸ h))

theorem SameFolder.writing_plain {cwd d n r : Text} {q : Request} (s : SameFolder cwd q d n) (hp : ∀ x, IsTemplateExt x → ¬ x <:+ n)
    (ho : q.overwrite = false) :
    writing q r = [.rename q.template (q.template ++ T ".original"), .create r (finalMode q), .fill r q.result] := by
  unfold writing
  rw [if_neg (by simp [s.same]), s.notTemplate hp, ho]
  rfl

/-- A file that is not a template is replaced by its result, and its content is kept in a file with the suffix `.original`; nothing else
changes. What is missing in the full statement: an existing file with this suffix is lost (`C46_not_backup`). -/
theorem C46_plain_partial {cwd d n : Text} {q : Request} (s : SameFolder cwd q d n) (hn : FileName n) (hp : ∀ x, IsTemplateExt x → ¬ x <:+ n)
    (ho : q.overwrite = false) (hs : q.stdout = false) (hc : q.changed = true) :
    ∃ r ops, plan q = some (r, ops) ∧ place cwd r = place cwd q.template ∧ ∀ fs : FS, run cwd fs ops = fun x =>
      if x = place cwd q.template then some ⟨q.result, if isScript q.result then 0o755 else q.mode⟩
      else if x = place cwd (q.template ++ T ".original") then fs (place cwd q.template)
      else fs x := by
  have hT := s.notTemplate hp
  obtain ⟨r, hr⟩ : ∃ r, resultName q = some r := by unfold resultName; simp [hT]
  have hpl : place cwd r = place cwd q.template := by
    rw [C46_name s (m := n) (.plain _ n hn hp) hr, ← s.path]
  refine ⟨r, writing q r, ?_, hpl, fun fs => ?_⟩
  · unfold plan
    simp [hr, hs, hc]
  · have hne := s.backup hn
    rw [s.writing_plain hp ho, ← List.singleton_append, run_append, run_write, hpl]
    funext x
    simp only [run, List.foldl_cons, List.foldl_nil, Op.apply, finalMode]
    by_cases hx : x = place cwd q.template
    · subst hx; simp [Ne.symm hne]
    · simp [hx]

/-- Whatever the moment of an interruption, the content of the file is at its place or in its backup. -/
theorem C46_plain_interrupted {cwd d n : Text} {q : Request} (s : SameFolder cwd q d n) (hn : FileName n) (hp : ∀ x, IsTemplateExt x → ¬ x <:+ n)
    (ho : q.overwrite = false) {r : Text} {ops : List Op} (h : plan q = some (r, ops)) (fs : FS) (k : Nat) :
    run cwd fs (ops.take k) (place cwd q.template) = fs (place cwd q.template) ∨
    run cwd fs (ops.take k) (place cwd (q.template ++ T ".original")) = fs (place cwd q.template) := by
  rcases plan_cases h with ⟨_, ho⟩ | ⟨hr, _, _, rfl⟩
  · left
    apply run_spares
    intro op hop
    have hop := List.mem_of_mem_take hop
    rcases ho with rfl | ⟨_, rfl⟩
    · simp at hop
    · rw [List.mem_singleton.1 hop]; trivial
  · have hpl : place cwd r = place cwd q.template := by
      rw [C46_name s (m := n) (.plain _ n hn hp) hr, ← s.path]
    have hne := s.backup hn
    rw [s.writing_plain hp ho]
    cases k with
    | zero => exact .inl rfl
    | succ k =>
      right
      rw [List.take_succ_cons]
      show run cwd (Op.apply cwd fs _) _ _ = _
      rw [run_spares]
      · simp [Op.apply]
      · intro op hop
        have hop := List.mem_of_mem_take hop
        rcases List.mem_cons.1 hop with rfl | hop
        · show _ ≠ place cwd r
          rw [hpl]; exact hne
        · rw [List.mem_singleton.1 hop]
          show _ ≠ place cwd r
          rw [hpl]; exact hne

/-- Without overwriting, the only effect for a template is the file of its result, next to it. -/
theorem C46_template {cwd d n m : Text} {q : Request} (s : SameFolder cwd q d n) (h : ResultName q.overwrite n m) (hm : m ≠ n)
    (ho : q.overwrite = false) {r : Text} {ops : List Op} (hp : plan q = some (r, ops)) (hr : r ≠ []) (fs : FS) :
    (run cwd fs ops = fun x =>
      if x = place cwd (d ++ m) then some ⟨q.result, ((fs x).map File.mode).getD (if isScript q.result then 0o755 else q.mode)⟩ else fs x) ∧
    ∀ k x, x ≠ place cwd (d ++ m) → run cwd fs (ops.take k) x = fs x := by
  rcases plan_cases hp with ⟨h0, _⟩ | ⟨hrn, _, _, rfl⟩
  · exact absurd h0 hr
  · have hT : isTemplate q.template = true := by
      rw [s.path]
      rw [ho] at h
      cases h with
      | plain => exact absurd rfl hm
      | generated a e x _ _ hx _ => exact isTemplate_iff.2 ⟨x, hx, by rw [← List.append_assoc d]; exact List.suffix_append _ _⟩
    have hpl := C46_name s h hrn
    have hw : writing q r = [.create r (finalMode q), .fill r q.result] := by
      unfold writing
      rw [if_neg (by simp [s.same]), hT, ho]
      rfl
    rw [hw]
    refine ⟨?_, fun k x hx => ?_⟩
    · rw [run_write, hpl]; rfl
    · apply run_spares
      intro op hop
      have hop := List.mem_of_mem_take hop
      rw [← hpl] at hx
      rcases List.mem_cons.1 hop with rfl | hop
      · exact hx
      · rw [List.mem_singleton.1 hop]; exact hx

/-- With overwriting, the template is replaced by its result, and it is removed only once the result is complete. -/
theorem C46_replaced {cwd d n x : Text} {q : Request} (s : SameFolder cwd q d (n ++ x)) (hn : FileName n) (hx : IsTemplateExt x)
    (ht : ¬ T ".template" <:+ n) (ho : q.overwrite = true) {r : Text} {ops : List Op} (hp : plan q = some (r, ops)) (hr : r ≠ []) (fs : FS) :
    (run cwd fs ops = fun y =>
      if y = place cwd (d ++ n) then some ⟨q.result, ((fs y).map File.mode).getD (if isScript q.result then 0o755 else q.mode)⟩
      else if y = place cwd q.template then none else fs y) ∧
    ∀ k, run cwd fs (ops.take k) (place cwd q.template) = fs (place cwd q.template) ∨
      (run cwd fs (ops.take k) (place cwd (d ++ n))).map File.content = some q.result := by
  rcases plan_cases hp with ⟨h0, _⟩ | ⟨hrn, _, _, rfl⟩
  · exact absurd h0 hr
  · have hT : isTemplate q.template = true :=
      isTemplate_iff.2 ⟨x, hx, by rw [s.path, ← List.append_assoc]; exact List.suffix_append _ _⟩
    have hpl : place cwd r = place cwd (d ++ n) := C46_name s (m := n) (by rw [ho]; exact .replaced n x hn hx ht) hrn
    have hxn : x ≠ [] := by rcases hx with rfl | rfl <;> decide
    have hfn : FileName (n ++ x) := by
      have hl : 3 ≤ x.length := by rcases hx with rfl | rfl <;> decide
      refine ⟨by simp [hxn], ?_, ?_, ?_⟩
      · intro h; have := congrArg List.length h; simp [T] at this; omega
      · intro h; have := congrArg List.length h; simp [T] at this; omega
      · intro h
        rcases List.mem_append.1 h with h | h
        · exact hn.2.2.2 h
        · exact ext_noslash hx h
    have hne : place cwd (d ++ n) ≠ place cwd q.template := by
      rw [s.path]
      exact place_ne s.works s.folder hn hfn (by simp [hxn])
    have hw : writing q r = [.create r (finalMode q), .fill r q.result] ++ [.remove q.template] := by
      unfold writing
      rw [if_neg (by simp [s.same]), hT, ho]
      simp [s.same]
    have hw' := run_write cwd fs r (finalMode q) q.result
    rw [hpl] at hw'
    rw [hw]
    refine ⟨?_, fun k => ?_⟩
    · rw [run_append, hw']
      funext y
      simp only [run, List.foldl_cons, List.foldl_nil, Op.apply, finalMode]
      by_cases hy : y = place cwd q.template
      · subst hy; simp [Ne.symm hne]
      · simp [hy]
    · by_cases hk : k ≤ 2
      · left
        apply run_spares
        intro op hop
        rw [List.take_append_of_le_length (by simpa using hk)] at hop
        have hop := List.mem_of_mem_take hop
        rw [← hpl] at hne
        rcases List.mem_cons.1 hop with rfl | hop
        · exact Ne.symm hne
        · rw [List.mem_singleton.1 hop]; exact Ne.symm hne
      · right
        rw [List.take_of_length_le (by simp; omega), run_append, hw']
        simp [run, Op.apply, hne]

/-- The result of code given instead of a file is printed with a newline at its end, and nothing is printed if it has only spaces and tabs. -/
theorem C46_code (result : Text) :
    if ∀ c ∈ result, c = ' ' ∨ c = '\t' then printCode result = []
    else printCode result = if T "\n" <:+ result then result else result ++ T "\n" := by
  have hb : result.reverse.dropWhile (fun c => c == ' ' || c == '\t') = [] ↔ ∀ c ∈ result, c = ' ' ∨ c = '\t' := by
    have gen : ∀ l : Text, l.dropWhile (fun c => c == ' ' || c == '\t') = [] ↔ ∀ c ∈ l, c = ' ' ∨ c = '\t' := by
      intro l
      induction l with
      | nil => simp
      | cons c l ih =>
        by_cases hc : c = ' ' ∨ c = '\t'
        · have : (c == ' ' || c == '\t') = true := by simpa using hc
          simp [List.dropWhile_cons, this, ih, hc]
        · have : (c == ' ' || c == '\t') = false := by simpa using hc
          simp only [List.dropWhile_cons, this]
          simp [hc]
    rw [gen]
    simp
  have hn : hasSuffix ['\n'] result = true ↔ T "\n" <:+ result := hasSuffix_iff
  unfold printCode
  by_cases h : ∀ c ∈ result, c = ' ' ∨ c = '\t'
  · rw [if_pos h, if_pos (hb.2 h)]
  · rw [if_neg h, if_neg (fun e => h (hb.1 e))]
    by_cases h' : T "\n" <:+ result
    · rw [if_pos h', if_pos (hn.2 h')]
    · rw [if_neg h', if_neg (fun e => h' (hn.1 e))]
      rfl

example : printCode (T "  ") = [] ∧ printCode (T "a") = T "a\n" ∧ printCode (T "\n") = T "\n" := by decide

/-- The templates of the examples. -/
def sample (template source target : String) (overwrite : Bool) : Request :=
  { template := T template, sourceFolder := T source, targetFolder := T target, overwrite := overwrite, stdout := false, result := T "new", changed := true, mode := 0o644 }

/-- The files of the examples: a path and its content. -/
def disk (files : List (String × String)) : FS := fun x => (files.find? (fun f => T f.1 = x)).map (fun f => ⟨T f.2, 0o644⟩)

example : SameFolder (T "/work") (sample "sub/a.tf.gt" "/work" "/work" false) (T "sub/") (T "a" ++ T ".tf" ++ T ".gt") ∧
    ResultName false (T "a" ++ T ".tf" ++ T ".gt") (T "a" ++ T ".generated" ++ T ".tf") ∧
    plan (sample "sub/a.tf.gt" "/work" "/work" false) = some (T "/work/sub/a.generated.tf",
      [.create (T "/work/sub/a.generated.tf") 0o644, .fill (T "/work/sub/a.generated.tf") (T "new")]) := by
  refine ⟨⟨by decide, by decide, rfl, .inr rfl, by decide, .inr ⟨T "sub", by decide⟩⟩, ?_, by decide +kernel⟩
  exact .generated _ _ _ (by unfold FileName; decide) (.some (T "a") (T "tf") (by decide)) (.inl rfl) (by decide +kernel)

example : OtherFolder (T "/work") (sample "/work/sub/a.yml" "/work" "/out" false) (T "sub/") (T "a.yml") ∧
    resultName (sample "/work/sub/a.yml" "/work" "/out" false) = some (T "/out/sub/a.yml") :=
  ⟨⟨by decide, by decide, by decide, by decide, by decide, .inr ⟨T "sub", by decide⟩, by decide⟩, by decide +kernel⟩

/-- An existing file with the suffix `.original` is lost: the content `old` is in no file any more. -/
theorem C46_not_backup : ∃ (q : Request) (fs : FS) (r : Text) (ops : List Op), SameFolder (T "/w") q (T "/w/") (T "a.txt") ∧
    plan q = some (r, ops) ∧ q.overwrite = false ∧ fs (T "/w/a.txt.original") = some ⟨T "old", 0o644⟩ ∧
    run (T "/w") fs ops (T "/w/a.txt.original") = some ⟨T "text", 0o644⟩ := by
  refine ⟨sample "/w/a.txt" "/w" "/w" false, disk [("/w/a.txt", "text"), ("/w/a.txt.original", "old")], T "/w/a.txt",
    writing (sample "/w/a.txt" "/w" "/w" false) (T "/w/a.txt"), ⟨by decide, by decide, rfl, .inl (by decide), by decide, .inr ⟨T "/w", by decide⟩⟩, by decide +kernel,
    rfl, by decide +kernel, by decide +kernel⟩

/-- With overwriting, an interruption can lose the content of a file: it is in no file while the file is being written. -/
theorem C46_not_overwrite : ∃ (q : Request) (fs : FS) (r : Text) (ops : List Op) (k : Nat), SameFolder (T "/w") q (T "/w/") (T "a.txt") ∧
    plan q = some (r, ops) ∧ fs (T "/w/a.txt") = some ⟨T "text", 0o644⟩ ∧
    ∀ x, (run (T "/w") fs (ops.take k) x).map File.content ≠ some (T "text") ∧ (run (T "/w") fs (ops.take k) x).map File.content ≠ some q.result := by
  refine ⟨sample "/w/a.txt" "/w" "/w" true, disk [("/w/a.txt", "text")], T "/w/a.txt",
    writing (sample "/w/a.txt" "/w" "/w" true) (T "/w/a.txt"), 1, ⟨by decide, by decide, rfl, .inl (by decide), by decide, .inr ⟨T "/w", by decide⟩⟩, by decide +kernel,
    by decide +kernel, fun x => ?_⟩
  have hw : (writing (sample "/w/a.txt" "/w" "/w" true) (T "/w/a.txt")).take 1 = [.create (T "/w/a.txt") 0o644] := by decide +kernel
  have hp : place (T "/w") (T "/w/a.txt") = T "/w/a.txt" := by decide +kernel
  rw [hw]
  simp only [run, List.foldl_cons, List.foldl_nil, Op.apply, hp]
  by_cases hx : x = T "/w/a.txt"
  · rw [if_pos hx]
    constructor <;> · intro h; simp [T, sample] at h
  · rw [if_neg hx]
    have : disk [("/w/a.txt", "text")] x = none := by simp [disk, Ne.symm hx]
    rw [this]
    constructor <;> · intro h; simp at h

/-- The two folders are compared as texts: with the same folder written in two ways, a file that rendering does not change is written again
without backup. -/
theorem C46_not_folder : ∃ (q : Request) (r : Text) (ops : List Op), clean q.sourceFolder = clean q.targetFolder ∧ q.changed = false ∧
    q.overwrite = false ∧ plan q = some (r, ops) ∧ place (T "/w") r = place (T "/w") q.template ∧
    ∀ fs : FS, run (T "/w") fs (ops.take 2) (T "/w/a.txt") = some ⟨[], ((fs (T "/w/a.txt")).map File.mode).getD 0o644⟩ := by
  refine ⟨{ sample "/w/a.txt" "/w" "/w/" false with changed := false }, T "/w/a.txt", _, by decide +kernel, rfl, rfl,
    show _ = some (T "/w/a.txt", [.mkdirAll (T "/w/a.txt"), .create (T "/w/a.txt") 0o644, .fill (T "/w/a.txt") (T "new")]) by decide +kernel, by decide +kernel, fun fs => ?_⟩
  have hp : place (T "/w") (T "/w/a.txt") = T "/w/a.txt" := by decide +kernel
  simp [run, Op.apply, hp]

/-- A template whose name is only the extension is written out of its folder. -/
theorem C46_not_hidden : ∃ (q : Request) (r : Text) (ops : List Op), SameFolder (T "/w/a") q (T "/w/a/") (T ".gt") ∧ plan q = some (r, ops) ∧
    r = T "/w/a.generated" :=
  ⟨sample "/w/a/.gt" "/w/a" "/w/a" false, _, writing (sample "/w/a/.gt" "/w/a" "/w/a" false) (T "/w/a.generated"),
    ⟨by decide, by decide, rfl, .inl (by decide), by decide, .inr ⟨T "/w/a", by decide⟩⟩, by decide +kernel, rfl⟩

/-- Two templates of a folder can have the same result, so that one is lost. -/
theorem C46_not_distinct : ∃ (p q : Request) (r : Text) (ops ops' : List Op), p.template ≠ q.template ∧ plan p = some (r, ops) ∧ plan q = some (r, ops') :=
  ⟨sample "/w/a.gt" "/w" "/w" false, sample "/w/a.template" "/w" "/w" false, T "/w/a.generated",
    writing (sample "/w/a.gt" "/w" "/w" false) (T "/w/a.generated"), writing (sample "/w/a.template" "/w" "/w" false) (T "/w/a.generated"),
    by decide, by decide +kernel, by decide +kernel⟩

/-- A script keeps the permissions of the file it replaces: it is not executable. -/
theorem C46_not_mode : ∃ (q : Request) (fs : FS) (r : Text) (ops : List Op), SameFolder (T "/w") q (T "/w/") (T "a.sh.gt") ∧ isScript q.result = true ∧
    plan q = some (r, ops) ∧ (run (T "/w") fs ops (place (T "/w") r)).map File.mode = some 0o644 := by
  refine ⟨{ sample "/w/a.sh.gt" "/w" "/w" false with result := T "#!/bin/sh" }, disk [("/w/a.sh.gt", "x"), ("/w/a.generated.sh", "old")], T "/w/a.generated.sh",
    [.create (T "/w/a.generated.sh") 0o755, .fill (T "/w/a.generated.sh") (T "#!/bin/sh")],
    ⟨by decide, by decide, rfl, .inl (by decide), by decide, .inr ⟨T "/w", by decide⟩⟩, by decide +kernel, by decide +kernel, by decide +kernel⟩

/-- Printing the result of a Terraform file always panics, and nothing else does. -/
theorem C46_not_terraform (q : Request) : plan q = none ↔
    q.stdout = true ∧ ∃ n e, resultName q = some (n ++ e) ∧ (e = T ".tf" ∨ e = T ".tf.json" ∨ e = T ".tfvars") := by
  have key : ∀ r, isTerraform r = true ↔ ∃ n e, r = n ++ e ∧ (e = T ".tf" ∨ e = T ".tf.json" ∨ e = T ".tfvars") := by
    intro r
    simp only [isTerraform, List.any_cons, List.any_nil, Bool.or_false, Bool.or_eq_true, hasSuffix_iff]
    constructor
    · rintro (⟨n, h⟩ | ⟨n, h⟩ | ⟨n, h⟩)
      · exact ⟨n, _, h.symm, .inl rfl⟩
      · exact ⟨n, _, h.symm, .inr (.inl rfl)⟩
      · exact ⟨n, _, h.symm, .inr (.inr rfl)⟩
    · rintro ⟨n, e, rfl, rfl | rfl | rfl⟩
      · exact .inl (List.suffix_append _ _)
      · exact .inr (.inl (List.suffix_append _ _))
      · exact .inr (.inr (List.suffix_append _ _))
  unfold plan
  cases hr : resultName q with
  | none => simp
  | some r =>
    cases hs : q.stdout with
    | false => simp only [Bool.false_eq_true, if_false, false_and, iff_false]; split <;> simp
    | true =>
      simp only [if_true, true_and, Option.some.injEq]
      rw [← key]
      cases isTerraform r <;> simp

example : resultName (sample "/w/main.tf" "/w" "/w" false) = some (T "/w/main" ++ T ".tf") := by decide +kernel

private theorem sampleSame : SameFolder (T "/work") (sample "sub/a.tf.gt" "/work" "/work" false) (T "sub/") (T "a" ++ T ".tf" ++ T ".gt") :=
  ⟨by decide, by decide, rfl, .inr rfl, by decide, .inr ⟨T "sub", by decide⟩⟩

private theorem sampleOther : OtherFolder (T "/work") (sample "/work/sub/a.yml" "/work" "/out" false) (T "sub/") (T "a.yml") :=
  ⟨by decide, by decide, by decide, by decide, by decide, .inr ⟨T "sub", by decide⟩, by decide⟩

private theorem sampleName : ResultName false (T "a" ++ T ".tf" ++ T ".gt") (T "a" ++ T ".generated" ++ T ".tf") :=
  .generated _ _ _ (by unfold FileName; decide) (.some (T "a") (T "tf") (by decide)) (.inl rfl) (by decide +kernel)

private theorem noTemplateExt {n : Text} (h1 : ¬ T ".gt" <:+ n) (h2 : ¬ T ".template" <:+ n) : ∀ x, IsTemplateExt x → ¬ x <:+ n := by
  rintro x (rfl | rfl)
  · exact h1
  · exact h2

private theorem ymlName : ResultName false (T "a.yml") (T "a.yml") := .plain _ _ (by unfold FileName; decide) (noTemplateExt (by decide) (by decide))

example : place (T "/work") (T "/work/sub/a.generated.tf") = place (T "/work") (T "sub/" ++ (T "a" ++ T ".generated" ++ T ".tf")) :=
  C46_name sampleSame sampleName (by decide +kernel)
example : place (T "/work") (T "/out/sub/a.yml") = place (T "/work") (T "/out" ++ T "/" ++ T "sub/" ++ T "a.yml") :=
  C46_name_elsewhere sampleOther ymlName (by decide +kernel)
example : resultName (sample "sub/a.tf.gt" "/work" "/work" false) = none ↔ (∀ c ∈ T "new", isSpace c = true) ∧ T ".tf" = [] :=
  C46_saved sampleSame (by unfold FileName; decide) (.some (T "a") (T "tf") (by decide)) (.inl rfl) (by decide +kernel)
example : plan { sample "/w/a.yml" "/w" "/w" false with changed := false } = some ([], []) := C46_untouched rfl rfl rfl
example : ∃ mode, run (T "/work") (disk []) [.mkdirAll (T "/out/sub/a.yml"), .create (T "/out/sub/a.yml") 0o644, .fill (T "/out/sub/a.yml") (T "new")]
    (place (T "/work") (T "/out" ++ T "/" ++ T "sub/" ++ T "a.yml")) = some ⟨T "new", mode⟩ ∧
    (ScriptText (trimSpace (T "new")) → mode = 0o755) ∧ (¬ ScriptText (trimSpace (T "new")) → mode = 0o644) :=
  C46_script sampleOther ymlName (r := T "/out/sub/a.yml") (by decide +kernel) (by decide) (disk []) rfl
example : ∃ ops, plan (sample "/work/sub/a.yml" "/work" "/out" false) = some (T "/out/sub/a.yml", ops) ∧ Op.fill (T "/out/sub/a.yml") (T "new") ∈ ops :=
  C46_copied (by decide) rfl (by decide +kernel)
example : run (T "/work") (disk [("/work/a.yml", "old")]) ([Op.print (T "new")].take 1) = disk [("/work/a.yml", "old")] := by
  have h : ∃ r ops, plan { sample "/work/a.yml" "/work" "/work" false with stdout := true } = some (r, ops) ∧ ops = [Op.print (T "new")] := ⟨[], _, by decide +kernel, rfl⟩
  obtain ⟨r, ops, h, rfl⟩ := h
  exact (C46_print (cwd := T "/work") h rfl _ 1).1

/-- What is done for a file that is not a template, in its folder. -/
private theorem plainPlan : plan (sample "/work/a.yml" "/work" "/work" false) = some (T "/work/a.yml",
    [.rename (T "/work/a.yml") (T "/work/a.yml.original"), .create (T "/work/a.yml") 0o644, .fill (T "/work/a.yml") (T "new")]) := by decide +kernel

private theorem plainSame : SameFolder (T "/work") (sample "/work/a.yml" "/work" "/work" false) (T "/work/") (T "a.yml") :=
  ⟨by decide, by decide, rfl, .inr rfl, by decide, .inr ⟨T "/work", by decide⟩⟩

example (fs : FS) (k : Nat) : run (T "/work") fs ([Op.rename (T "/work/a.yml") (T "/work/a.yml.original"), .create (T "/work/a.yml") 0o644, .fill (T "/work/a.yml") (T "new")].take k)
    (T "/work/b.yml") = fs (T "/work/b.yml") :=
  C46_others (cwd := T "/work") plainPlan fs k (by decide +kernel) (by decide +kernel) (by decide +kernel)
example (fs : FS) (k : Nat) : run (T "/work") fs ([Op.create (T "/work/sub/a.generated.tf") 0o644, .fill (T "/work/sub/a.generated.tf") (T "new")].take k)
    (place (T "/work") (T "sub/a.tf.gt")) = fs (place (T "/work") (T "sub/a.tf.gt")) :=
  C46_source (cwd := T "/work") (q := sample "sub/a.tf.gt" "/work" "/work" false) (r := T "/work/sub/a.generated.tf") (by decide +kernel) fs k (by decide +kernel)
    (.inr (by decide +kernel))
example (fs : FS) : (run (T "/work") fs [.rename (T "/work/a.yml") (T "/work/a.yml.original"), .create (T "/work/a.yml") 0o644, .fill (T "/work/a.yml") (T "new")]
    (place (T "/work") (T "/work/a.yml"))).map File.content = some (T "new") := by
  have := C46_returned (cwd := T "/work") plainPlan (by decide) (fun h => absurd h (by decide +kernel)) fs
  rwa [if_neg (by decide)] at this
example := C46_plain_partial plainSame (by unfold FileName; decide) (noTemplateExt (by decide) (by decide)) rfl rfl rfl
example := C46_plain_interrupted plainSame (by unfold FileName; decide) (noTemplateExt (by decide) (by decide)) rfl plainPlan (disk [("/work/a.yml", "old")]) 2
example := C46_template sampleSame sampleName (by decide) rfl (r := T "/work/sub/a.generated.tf")
  (ops := [.create (T "/work/sub/a.generated.tf") 0o644, .fill (T "/work/sub/a.generated.tf") (T "new")]) (by decide +kernel) (by decide) (disk [])
example := C46_replaced (cwd := T "/work") (d := T "/work/") (n := T "a.tf") (x := T ".gt") (q := sample "/work/a.tf.gt" "/work" "/work" true)
  ⟨by decide, by decide, rfl, .inr rfl, by decide, .inr ⟨T "/work", by decide⟩⟩ (by unfold FileName; decide) (.inl rfl) (by decide) rfl (r := T "/work/a.tf")
  (ops := [.create (T "/work/a.tf") 0o644, .fill (T "/work/a.tf") (T "new"), .remove (T "/work/a.tf.gt")]) (by decide +kernel) (by decide) (disk [])


end Verif.Props
