import Verif.Lemmas.FindFiles
/-!
# C52: the search of files

`FindFilesMaxDepth` on any tree of folders and links.
-/

namespace Verif.Props
open Verif Spec FindFiles Lemmas

/-- Without following links the search ends, and it looks once in the start folder and once in each folder at most `maxDepth` levels below, and
nowhere else. -/
theorem C52_found (c : Config) (hf : c.followLinks = false) (hd : DistinctNames c.root) (n : Nat) (folder : List Text) :
    ∃ ds : List (List Text), findFilesMaxDepth c (n + 1) folder = some (ds.flatMap c.find) ∧ ds.Nodup ∧
      ∀ d, d ∈ ds ↔ ∃ q, d = folder ++ q ∧ q.length ≤ c.maxDepth ∧ (q = [] ∨ IsDir c.root d) := by
  have hnone : (∀ es, c.root.at folder ≠ some (.dir es)) → ∀ name q, ¬ IsDir c.root (folder ++ name :: q) := by
    rintro h name q ⟨es, hes⟩
    rw [at_append] at hes
    obtain ⟨y, hy, hes⟩ := Option.bind_eq_some_iff.1 hes
    cases y with
    | dir es' => exact h es' hy
    | file => cases hes
    | link t => cases hes
  simp only [findFilesMaxDepth, walker]
  by_cases h0 : c.maxDepth = 0
  · refine ⟨[folder], by simp [h0], by simp, ?_⟩
    intro d
    rw [List.mem_singleton]
    constructor
    · rintro rfl; exact ⟨[], by simp, by simp, .inl rfl⟩
    · rintro ⟨q, rfl, hq, _⟩
      rw [h0] at hq
      rw [List.length_eq_zero_iff.1 (Nat.le_zero.1 hq)]; simp
  · rw [if_neg h0]
    cases hx : c.root.at folder with
    | none =>
      refine ⟨[folder], by simp, by simp, ?_⟩
      intro d
      rw [List.mem_singleton]
      constructor
      · rintro rfl; exact ⟨[], by simp, by simp, .inl rfl⟩
      · rintro ⟨q, rfl, hq, h⟩
        cases q with
        | nil => simp
        | cons name q => exact absurd (h.resolve_left (by simp)) (hnone (by simp [hx]) name q)
    | some x =>
      cases x with
      | dir es =>
        have hn := hd folder es hx
        have hes : ∀ e ∈ es, DistinctNames e.2 := by
          intro e he
          refine hd.sub (p := folder ++ [e.1]) ?_
          rw [at_append, hx, Option.bind_some, at_cons, entry_of_mem hn (x := e.2) he]
          exact at_nil _
        obtain ⟨v, hv⟩ := walkEntries_plain c hf (walker c n) folder 0 es ⟨c.find folder, []⟩
        refine ⟨folder :: dirsEntries c.maxDepth folder 0 es, by simp [hv], ?_, ?_⟩
        · refine List.nodup_cons.2 ⟨fun h => ?_, nodup_dirsEntries es hn hes⟩
          obtain ⟨n, q, _, hq⟩ := prefix_dirsEntries es folder h
          have := congrArg List.length hq
          simp at this
        · intro d
          rw [List.mem_cons, mem_dirsEntries es hn hes]
          constructor
          · rintro (rfl | ⟨name, q, rfl, ⟨es', h1⟩, h2⟩)
            · exact ⟨[], by simp, by simp, .inl rfl⟩
            · exact ⟨name :: q, rfl, by simp; omega, .inr ⟨es', by rw [at_append, hx]; exact h1⟩⟩
          · rintro ⟨q, rfl, hq, h⟩
            cases q with
            | nil => left; simp
            | cons name q =>
              right
              obtain ⟨es', h⟩ := h.resolve_left (by simp)
              rw [at_append, hx] at h
              exact ⟨name, q, rfl, ⟨es', h⟩, by simp at hq; omega⟩
      | file =>
        refine ⟨[folder], by simp, by simp, ?_⟩
        intro d
        rw [List.mem_singleton]
        constructor
        · rintro rfl; exact ⟨[], by simp, by simp, .inl rfl⟩
        · rintro ⟨q, rfl, hq, h⟩
          cases q with
          | nil => simp
          | cons name q => exact absurd (h.resolve_left (by simp)) (hnone (by simp [hx]) name q)
      | link t =>
        refine ⟨[folder], by simp, by simp, ?_⟩
        intro d
        rw [List.mem_singleton]
        constructor
        · rintro rfl; exact ⟨[], by simp, by simp, .inl rfl⟩
        · rintro ⟨q, rfl, hq, h⟩
          cases q with
          | nil => simp
          | cons name q => exact absurd (h.resolve_left (by simp)) (hnone (by simp [hx]) name q)

/-- Without following links no file is listed twice, provided that the patterns do not overlap (each folder lists its own files, once each).
Missing: overlapping patterns and links, see `C52_not_patterns` and `C52_not_once`. -/
theorem C52_once_partial (c : Config) (hf : c.followLinks = false) (hd : DistinctNames c.root) (n : Nat) (folder : List Text)
    (h1 : ∀ d, (c.find d).Nodup) (h2 : ∀ d d' f, f ∈ c.find d → f ∈ c.find d' → d = d') :
    ∃ fs, findFilesMaxDepth c (n + 1) folder = some fs ∧ fs.Nodup := by
  obtain ⟨ds, h, hn, hm⟩ := C52_found c hf hd n folder
  refine ⟨_, h, ?_⟩
  clear h hm
  induction ds with
  | nil => simp
  | cons d ds ih =>
    rw [List.nodup_cons] at hn
    rw [List.flatMap_cons]
    refine List.nodup_append.2 ⟨h1 d, ih hn.2, ?_⟩
    rintro f hf1 f' hf2 rfl
    obtain ⟨d', hd', hf'⟩ := List.mem_flatMap.1 hf2
    exact hn.1 (by rw [h2 d d' f hf1 hf']; exact hd')

/-- A folder with a sub folder and a file in each. -/
private def tree : Node := .dir [(T "a", .dir [(T "b", .dir []), (T "f", .file)]), (T "g", .file)]

/-- The path of a folder as text, as if it held one file. -/
private def oneFile (d : List Text) : List Text := [d.flatMap (fun n => '/' :: n)]

private theorem tree_distinct : DistinctNames tree := by
  intro path es h
  match path, h with
  | [], h => cases h; decide
  | n :: path, h =>
    simp only [tree, at_cons, Node.entry] at h
    split at h
    · rw [Option.bind_some] at h
      match path, h with
      | [], h => cases h; decide
      | m :: path, h =>
        simp only [at_cons, Node.entry] at h
        split at h
        · rw [Option.bind_some] at h
          match path, h with
          | [], h => cases h; decide
          | k :: path, h => cases h
        · split at h
          · cases path <;> cases h
          · cases h
    · split at h
      · cases path <;> cases h
      · cases h

example : DistinctNames tree ∧ findFilesMaxDepth ⟨tree, 1, false, oneFile⟩ 1 [] = some [T "", T "/a"] ∧
    findFilesMaxDepth ⟨tree, 2, false, oneFile⟩ 1 [] = some [T "", T "/a", T "/a/b"] := ⟨tree_distinct, by decide +kernel, by decide +kernel⟩

/-- The depth of a plain search is zero: only the start folder is searched; that of a recursive search is 65536. -/
theorem C52_recursive (c : Config) (recursive : Bool) (hf : c.followLinks = false) (hd : DistinctNames c.root)
    (hm : ∀ p, IsDir c.root p → p.length ≤ 65536) (n : Nat) (folder : List Text) :
    ∃ ds : List (List Text), findFilesIn c recursive (n + 1) folder = some (ds.flatMap c.find) ∧ ds.Nodup ∧
      ∀ d, d ∈ ds ↔ d = folder ∨ (recursive = true ∧ folder <+: d ∧ IsDir c.root d) := by
  obtain ⟨ds, h1, h2, h3⟩ := C52_found { c with maxDepth := depthOf recursive } hf hd n folder
  refine ⟨ds, h1, h2, fun d => (h3 d).trans ?_⟩
  cases recursive with
  | false =>
    have h0 : depthOf false = 0 := rfl
    constructor
    · rintro ⟨q, rfl, hq, _⟩
      rw [h0] at hq
      rw [List.length_eq_zero_iff.1 (Nat.le_zero.1 hq)]; simp
    · rintro (rfl | ⟨h, _⟩)
      · exact ⟨[], by simp, by simp, .inl rfl⟩
      · cases h
  | true =>
    have h0 : depthOf true = 65536 := by decide
    constructor
    · rintro ⟨q, rfl, hq, h⟩
      rcases h with rfl | h
      · left; simp
      · exact .inr ⟨rfl, ⟨q, rfl⟩, h⟩
    · rintro (rfl | ⟨_, ⟨q, rfl⟩, h⟩)
      · exact ⟨[], by simp, by simp, .inl rfl⟩
      · refine ⟨q, rfl, ?_, .inr h⟩
        have := hm _ h
        rw [List.length_append] at this
        show q.length ≤ depthOf true
        rw [h0]
        omega

example : findFilesIn ⟨tree, 0, false, oneFile⟩ true 1 [] = some [T "", T "/a", T "/a/b"] ∧ findFilesIn ⟨tree, 5, false, oneFile⟩ false 1 [] = some [T ""] :=
  ⟨by decide +kernel, by decide +kernel⟩

/-- The files found in a folder are those that match one of the patterns. -/
theorem C52_patterns (glob : Text → List Text → List Text) (patterns : List Text) (folder : List Text) (f : Text) :
    f ∈ findFiles glob patterns folder ↔ ∃ p ∈ patterns, f ∈ glob p folder := by
  simp [findFiles]

/-- A file that matches two patterns is listed twice. -/
theorem C52_not_patterns : ¬ ∀ (glob : Text → List Text → List Text) (patterns : List Text) (folder : List Text), (∀ p, (glob p folder).Nodup) → patterns.Nodup →
    (findFiles glob patterns folder).Nodup := by
  intro h
  have := h (fun _ _ => [T "x.gt"]) [T "*.gt", T "x*"] [] (by intro p; simp) (by decide)
  revert this; decide

/-- Following links, the files come from folders at most `maxDepth` levels below the start or below the target of a link that was found so. -/
theorem C52_sound (c : Config) (hd : DistinctNames c.root) (n : Nat) (folder : List Text) (fs : List Text) (h : findFilesMaxDepth c n folder = some fs) :
    ∀ f ∈ fs, ∃ r q, StartFolder c.root c.maxDepth folder r ∧ q.length ≤ c.maxDepth ∧ (q = [] ∨ IsDir c.root (r ++ q)) ∧ f ∈ c.find (r ++ q) := by
  intro f hfm
  obtain ⟨s, hs, rfl⟩ := Option.map_eq_some_iff.1 h
  obtain ⟨ds, h1, h2⟩ := walker_sound c hd folder n folder [] .given s hs
  rw [h1, List.nil_append] at hfm
  obtain ⟨d, hdd, hfd⟩ := List.mem_flatMap.1 hfm
  obtain ⟨r, q, k1, rfl, k3, k4⟩ := h2 d hdd
  exact ⟨r, q, k1, k3, k4, hfd⟩

/-- Following links, a search that ends finds the files of everything that can be reached, when no folder is deeper than the maximum depth.
Missing: a smaller maximum depth, see `C52_not_order`. -/
theorem C52_all_partial (c : Config) (hf : c.followLinks = true) (hd : DistinctNames c.root) (h0 : c.maxDepth ≠ 0)
    (hm : ∀ p, IsDir c.root p → p.length ≤ c.maxDepth) (n : Nat) (folder : List Text) (fs : List Text) (h : findFilesMaxDepth c n folder = some fs) :
    ∀ d, Reachable c.root folder d → ∀ f ∈ c.find d, f ∈ fs := by
  obtain ⟨s, hs, rfl⟩ := Option.map_eq_some_iff.1 h
  obtain ⟨ds, h1, h2, _, h4⟩ := walker_complete c hf hd hm h0 n folder [] (fun _ => False) s (by simp) hs
  intro d hr f hfd
  rw [h2, List.nil_append]
  refine List.mem_flatMap.2 ⟨d, ?_, hfd⟩
  clear hfd
  induction hr with
  | start => exact h1
  | enter p name _ hdir ih => exact ((h4 p ih).1 name hdir).resolve_left id
  | follow p name t _ hl ih => exact ((h4 p ih).2 name t hl).resolve_left id

/-- Following links, the search ends when links cannot be followed for ever: some measure of folders decreases along every link below them.
Missing: links that form a cycle, see `C52_not_ends`. -/
theorem C52_ends_partial (c : Config) (hd : DistinctNames c.root) (rank : List Text → Nat)
    (hr : ∀ r q t, IsLink c.root (r ++ q) t → rank t < rank r) (folder : List Text) : ∃ n fs, findFilesMaxDepth c n folder = some fs := by
  obtain ⟨s, hs⟩ := Option.isSome_iff_exists.1 (walker_ends c hd rank hr (rank folder + 1) folder [] (by omega))
  exact ⟨rank folder + 1, s.results, by simp [findFilesMaxDepth, hs]⟩

/-- A folder with a link to the folder next to it. -/
private def linked : Node := .dir [(T "a", .dir [(T "l", .link [T "b"])]), (T "b", .dir [])]

private theorem linked_link {p t : List Text} (h : IsLink linked p t) : p = [T "a", T "l"] ∧ t = [T "b"] := by
  unfold IsLink at h
  match p, h with
  | [], h => cases h
  | n :: path, h =>
    simp only [linked, at_cons, Node.entry] at h
    split at h
    · rename_i hn
      rw [Option.bind_some] at h
      match path, h with
      | [], h => cases h
      | m :: path, h =>
        simp only [at_cons, Node.entry] at h
        split at h
        · rename_i hm
          cases path <;> cases h
          exact ⟨by rw [← hn, ← hm], rfl⟩
        · cases h
    · split at h
      · cases path <;> cases h
      · cases h

private theorem linked_dir {p : List Text} {es : List (Text × Node)} (h : linked.at p = some (.dir es)) : p.length ≤ 1 ∧ (es.map Prod.fst).Nodup := by
  match p, h with
  | [], h => cases h; exact ⟨by simp, by decide⟩
  | n :: path, h =>
    simp only [linked, at_cons, Node.entry] at h
    split at h
    · rw [Option.bind_some] at h
      match path, h with
      | [], h => cases h; exact ⟨by simp, by decide⟩
      | m :: path, h =>
        simp only [at_cons, Node.entry] at h
        split at h
        · cases path <;> cases h
        · cases h
    · split at h
      · cases path <;> cases h
        exact ⟨by simp, by decide⟩
      · cases h

example : DistinctNames linked ∧ (∀ p, IsDir linked p → p.length ≤ 1) ∧
    (∀ r q t, IsLink linked (r ++ q) t → (if t.isPrefixOf [T "a", T "l"] then 1 else 0) < (if r.isPrefixOf [T "a", T "l"] then 1 else 0)) ∧
    Reachable linked [T "a"] [T "b"] ∧ findFilesMaxDepth ⟨linked, 1, true, oneFile⟩ 2 [T "a"] = some [T "/a", T "/b"] := by
  refine ⟨fun p es h => (linked_dir h).2, fun p ⟨es, h⟩ => (linked_dir h).1, ?_, .follow [T "a"] (T "l") _ .start rfl, by decide +kernel⟩
  intro r q t h
  obtain ⟨h1, rfl⟩ := linked_link h
  have : r.isPrefixOf [T "a", T "l"] = true := List.isPrefixOf_iff_prefix.2 ⟨q, h1⟩
  rw [if_pos this]
  decide

/-- A folder with a link to itself is searched for ever. -/
theorem C52_not_ends : ¬ ∀ (c : Config) (folder : List Text), DistinctNames c.root → ∃ n fs, findFilesMaxDepth c n folder = some fs := by
  intro h
  obtain ⟨n, fs, h⟩ := h ⟨.dir [(T "loop", .link [])], 65536, true, oneFile⟩ [] (by
    intro path es h
    match path, h with
    | [], h => cases h; decide
    | n :: path, h =>
      simp only [at_cons, Node.entry] at h
      split at h
      · cases path <;> cases h
      · cases h)
  obtain ⟨s, hs, hfs⟩ := Option.map_eq_some_iff.1 h
  clear h hfs
  induction n generalizing s with
  | zero => cases hs
  | succ n ih =>
    simp only [walker, at_nil, walkEntries, walkNode] at hs
    cases hw : walker ⟨.dir [(T "loop", .link [])], 65536, true, oneFile⟩ n [] [] with
    | none => simp [hw] at hs
    | some s' => exact ih s' hw

/-- A folder reached by a link and then by the walk is listed twice. -/
theorem C52_not_once : ∃ c : Config, c.followLinks = true ∧ (∀ d, (c.find d).Nodup) ∧ (∀ d d' f, f ∈ c.find d → f ∈ c.find d' → d = d') ∧
    ∃ fs, findFilesMaxDepth c 5 [] = some fs ∧ ¬ fs.Nodup :=
  ⟨⟨.dir [(T "a", .link [T "b"]), (T "b", .dir [])], 5, true, fun d => if d = [T "b"] then [T "/b/f"] else []⟩, rfl,
    by intro d; dsimp only; split <;> simp, by
      intro d d' f h1 h2
      dsimp only at h1 h2
      split at h1
      · split at h2
        · simp_all
        · simp at h2
      · simp at h1,
    [T "/b/f", T "/b/f"], by decide +kernel, by decide⟩

/-- A link leads to folders deeper than the maximum depth. -/
theorem C52_not_depth : ∃ (c : Config) (fs : List Text), c.maxDepth = 1 ∧ findFilesMaxDepth c 5 [] = some fs ∧ T "/a/b/c" ∈ fs :=
  ⟨⟨.dir [(T "a", .dir [(T "b", .dir [(T "c", .dir [])])]), (T "l", .link [T "a", T "b", T "c"])], 1, true, oneFile⟩,
    [T "", T "/a", T "/a/b/c"], rfl, by decide +kernel, by decide⟩

/-- Whether a link to a folder that is too deep is followed depends on the order of names. -/
theorem C52_not_order : ∃ (es es' : List (Text × Node)) (find : List Text → List Text) (fs fs' : List Text), es.Perm es' ∧
    findFilesMaxDepth ⟨.dir es, 1, true, find⟩ 5 [] = some fs ∧ findFilesMaxDepth ⟨.dir es', 1, true, find⟩ 5 [] = some fs' ∧
    T "/a/b" ∈ fs ∧ T "/a/b" ∉ fs' :=
  ⟨[(T "l", .link [T "a", T "b"]), (T "a", .dir [(T "b", .dir [])])], [(T "a", .dir [(T "b", .dir [])]), (T "l", .link [T "a", T "b"])], oneFile,
    [T "", T "/a/b", T "/a"], [T "", T "/a"], List.Perm.swap _ _ _, by decide +kernel, by decide +kernel, by decide, by decide⟩

/-- The files of two folders, each found in its folder only. -/
private def ownFiles (d : List Text) : List Text := if d = [] then [T "g"] else if d = [T "a"] then [T "a/f", T "a/h"] else []

example : ∃ fs, findFilesMaxDepth ⟨tree, 2, false, ownFiles⟩ 1 [] = some fs ∧ fs.Nodup := by
  refine C52_once_partial ⟨tree, 2, false, ownFiles⟩ rfl tree_distinct 0 [] ?_ ?_
  · intro d
    simp only [ownFiles]
    split
    · decide
    · split
      · decide
      · exact List.nodup_nil
  · intro d d' f h h'
    simp only [ownFiles] at h h'
    split at h <;> split at h'
    · rename_i h1 h2; rw [h1, h2]
    · split at h'
      · simp only [List.mem_cons, List.not_mem_nil, or_false] at h h'
        subst h; exact absurd h' (by decide)
      · cases h'
    · split at h
      · simp only [List.mem_cons, List.not_mem_nil, or_false] at h h'
        subst h'; exact absurd h (by decide)
      · cases h
    · split at h
      · split at h'
        · rename_i h1 h2; rw [h1, h2]
        · cases h'
      · cases h


end Verif.Props
