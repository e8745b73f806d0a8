import Verif.Output.Lemmas2

/-!
# HDF5 output (C87), merging a task in its file (C88), merging with the post-processing tools (C89)
-/

namespace Dedalus.Output

open Dedalus.Global

variable {α R : Type}

/-! ## C87 -/

/-- C87, gathered output. From a handler whose next set is `s0` (no files from there on), any number of outputs succeeds, and the files then
hold exactly these outputs: each at its place, with its time scales and the global array of every task. -/
theorem gather_output (zero : α) (fill : R) (max : Option Nat) (hmax : ∀ m, max = some m → 0 < m) (mesh : List Nat) (tasks : List Task)
    (hT : TasksOK mesh tasks) (s0 : Nat) (before : Nat → Option (H5 R (gatherMode zero max tasks).File)) (hb : ∀ s, s0 ≤ s → before s = none)
    (ws : List (Write α R × (Nat → NDArr α))) (hw : ∀ x ∈ ws, Faithful tasks x.1 x.2) :
    ∃ st, run (gatherMode zero max tasks) fill max tasks ⟨s0, 0, before⟩ (ws.map Prod.fst) = some st ∧
      Recorded (gatherMode zero max tasks).read tasks max s0 ws before st.files :=
  lawful_records (gatherLawful zero max mesh tasks hT) hT.names hmax fill s0 before hb ws hw

/-- C87, parallel output. -/
theorem parallel_output (zero : α) (fill : R) (max : Option Nat) (hmax : ∀ m, max = some m → 0 < m) (mesh : List Nat) (tasks : List Task)
    (hT : TasksOK mesh tasks) (s0 : Nat) (before : Nat → Option (H5 R (parallelMode zero max tasks).File)) (hb : ∀ s, s0 ≤ s → before s = none)
    (ws : List (Write α R × (Nat → NDArr α))) (hw : ∀ x ∈ ws, Faithful tasks x.1 x.2) :
    ∃ st, run (parallelMode zero max tasks) fill max tasks ⟨s0, 0, before⟩ (ws.map Prod.fst) = some st ∧
      Recorded (parallelMode zero max tasks).read tasks max s0 ws before st.files :=
  lawful_records (parallelLawful zero max mesh tasks hT) hT.names hmax fill s0 before hb ws hw

/-- C87, output to process files that are joined by virtual datasets. -/
theorem virtual_output (zero : α) (fill : R) (max : Option Nat) (hmax : ∀ m, max = some m → 0 < m) (mesh : List Nat) (tasks : List Task)
    (hT : TasksOK mesh tasks) (s0 : Nat) (before : Nat → Option (H5 R (virtualMode zero max (coordsList mesh) tasks).File))
    (hb : ∀ s, s0 ≤ s → before s = none) (ws : List (Write α R × (Nat → NDArr α))) (hw : ∀ x ∈ ws, Faithful tasks x.1 x.2) :
    ∃ st, run (virtualMode zero max (coordsList mesh) tasks) fill max tasks ⟨s0, 0, before⟩ (ws.map Prod.fst) = some st ∧
      Recorded (virtualMode zero max (coordsList mesh) tasks).read tasks max s0 ws before st.files :=
  lawful_records (virtualLawful zero max mesh tasks hT) hT.names hmax fill s0 before hb ws hw

/-- C87. Two tasks of the same name make the creation of the file fail, so no output is possible. -/
theorem repeated_name_fails (zero : α) (fill : R) (max : Option Nat) (t : Task) (tasks : List Task) (u : Task) (hu : u ∈ tasks) (he : u.name = t.name)
    (s0 : Nat) (before : Nat → Option (H5 R (gatherMode zero max (t :: tasks)).File)) (hb : ∀ s, s0 ≤ s → before s = none) (w : Write α R) :
    process (gatherMode zero max (t :: tasks)) fill max (t :: tasks) ⟨s0, 0, before⟩ w = none := by
  have key : ∀ (ts : List Task) (s : Store α), u ∈ ts → (s u.name).isSome = true →
      ts.foldlM (fun s t => addDset s t.name [filled zero (globalShape t.d)]) s = none := by
    intro ts
    induction ts with
    | nil => intro s h; simp at h
    | cons v ts ih =>
      intro s h hs
      rw [List.foldlM_cons]
      rcases List.mem_cons.mp h with rfl | h
      · obtain ⟨x, hx⟩ := Option.isSome_iff_exists.mp hs
        rw [addDset, hx]; rfl
      · cases hv : s v.name with
        | some x => rw [addDset, hv]; rfl
        | none =>
          rw [addDset, hv]
          refine ih _ h ?_
          by_cases e : u.name = v.name
          · rw [e, Function.update_self]; rfl
          · rw [Function.update_of_ne e]; exact hs
  have hc : (gatherMode zero max (t :: tasks)).create = none := by
    show createStore zero (t :: tasks) = none
    rw [createStore, List.foldlM_cons, addDset]
    refine key tasks _ hu ?_
    rw [he, Function.update_self]; rfl
  have hg : ∀ s, s0 ≤ s → getFile (gatherMode zero max (t :: tasks)) (before s) = none := by
    intro s hs
    rw [hb s hs, getFile, hc]; rfl
  unfold process
  by_cases hn : (max.any fun m => decide (0 + 1 > m)) = true
  · simp only [hn, if_true]
    rw [hg _ (by omega)]; rfl
  · simp only [hn, Bool.false_eq_true, if_false]
    rw [hg _ le_rfl]; rfl

/-- Two tasks on a mesh of 2 by 3 processes, one of which has no data for the first: a vector field and a scalar field. -/
def demoTasks : List Task := [⟨0, demoD⟩, ⟨1, ⟨[false, true, false], [2, 3], [4, 2, 6], [1, 1, 1], [false, false, false], []⟩⟩]

theorem demoTasks_ok : TasksOK [2, 3] demoTasks := by
  refine ⟨by decide, ?_, by decide, by decide⟩
  intro t ht
  simp only [demoTasks, List.mem_cons, List.not_mem_nil, or_false] at ht
  rcases ht with rfl | rfl
  · exact demoD_ok
  · exact ⟨rfl, rfl, .cons (by decide) (.cons (by decide) (.cons (by decide) .nil)), by decide, by decide⟩

/-- Arrays that change with time, and what the processes hold of them. -/
def demoArray (k : Nat) (name : Nat) : NDArr Int :=
  ⟨if name = 0 then [3, 6, 4, 8] else [4, 2, 6], fun idx => some ((idx.foldl (fun a i => 10 * a + i) k : Nat) : Int)⟩

theorem demo_write (k : Nat) : ∃ w : Write Int Nat, Faithful demoTasks w (demoArray k) := by
  have h : ∀ n, n < 2 → ∀ t ∈ demoTasks, t.name = n → ∃ field : List Nat → NDArr Int,
      ∀ coords, List.Forall₂ (· < ·) coords t.d.mesh → Holds t.d (demoArray k t.name) coords (field coords) := by
    intro n _ t ht _
    have hG : (demoArray k t.name).shape = t.d.comps ++ t.d.shape := by
      simp only [demoTasks, List.mem_cons, List.not_mem_nil, or_false] at ht
      rcases ht with rfl | rfl <;> rfl
    refine ⟨fun c => (loadGlobal t.d (demoArray k t.name) c).getD ⟨[], fun _ => none⟩, fun c hc => ?_⟩
    obtain ⟨a, h1, h2⟩ := load_gives_owned_part t.d (demoTasks_ok.ok t ht) (demoArray k t.name) hG c hc
    beta_reduce
    rw [h1]
    exact h2
  obtain ⟨f0, h0⟩ := h 0 (by omega) ⟨0, demoD⟩ (by simp [demoTasks]) rfl
  obtain ⟨f1, h1⟩ := h 1 (by omega) _ (List.mem_cons_of_mem _ (List.mem_singleton.mpr rfl)) rfl
  refine ⟨⟨k, fun n => if n = 0 then f0 else f1⟩, ?_⟩
  intro t ht
  simp only [demoTasks, List.mem_cons, List.not_mem_nil, or_false] at ht
  rcases ht with rfl | rfl
  · exact ⟨rfl, h0⟩
  · exact ⟨rfl, h1⟩

/-- The hypotheses of C87 are met: five outputs, two to a file, the first sets taken. -/
example : ∃ (ws : List (Write Int Nat × (Nat → NDArr Int))) (st : State Nat _), ws.length = 5 ∧
    run (virtualMode (0 : Int) (some 2) (coordsList [2, 3]) demoTasks) 0 (some 2) demoTasks ⟨4, 0, fun _ => none⟩ (ws.map Prod.fst) = some st ∧
    Recorded (virtualMode (0 : Int) (some 2) (coordsList [2, 3]) demoTasks).read demoTasks (some 2) 4 ws (fun _ => none) st.files := by
  choose w hw using demo_write
  obtain ⟨st, h1, h2⟩ := virtual_output (0 : Int) (0 : Nat) (some 2) (by simp) [2, 3] demoTasks demoTasks_ok 4 (fun _ => none) (fun _ _ => rfl)
    ((List.range 5).map fun k => (w k, demoArray k)) (by
      intro x hx
      obtain ⟨k, _, rfl⟩ := List.mem_map.mp hx
      exact hw k)
  exact ⟨_, st, by simp, h1, h2⟩

/-- The last process has no elements of the first task: it starts at the end of the axis. -/
example : (part demoD [1, 2]).map (fun p => (p.start, p.count)) = some ([0, 4, 0, 8], [3, 2, 4, 0]) := by decide

/-! ## C88 -/

theorem fresh_copied (zero : α) (old : Dset α) (hs : ∀ e ∈ old.entries, e.shape = old.shape) :
    Copied old ⟨false, old.shape, List.replicate old.entries.length (filled zero old.shape)⟩ [] := by
  refine ⟨rfl, rfl, List.length_replicate, ?_⟩
  intro w e o he ho'
  refine ⟨?_, by simp⟩
  have := List.mem_of_getElem? he
  rw [(List.mem_replicate.mp this).2, hs o (List.mem_of_getElem? ho')]
  rfl

/-- The creation and some copies, then the rest. -/
theorem merge_start (zero : α) (name merged : Nat) (hne : name ≠ merged) (g : Nat → Option (Dset α)) (old : Dset α) (ho : g name = some old)
    (hv : old.isVirtual = true) (hm : g merged = none) (hs : ∀ e ∈ old.entries, e.shape = old.shape) (cs : List ((Nat × Nat) × Part)) :
    ∃ new, Copied old new cs ∧ ∀ rest, mergeTask zero name merged (.create :: (cs.map Action.copy ++ rest)) g =
      mergeTask zero name merged rest (Function.update g merged (some new)) := by
  obtain ⟨new, h1, h2⟩ := merge_copies zero hne cs []
    (Function.update g merged (some ⟨false, old.shape, List.replicate old.entries.length (filled zero old.shape)⟩)) _
    (by rw [Function.update_of_ne hne]; exact ho) (Function.update_self _ _ _) (fresh_copied zero old hs)
  refine ⟨new, h1, fun rest => ?_⟩
  have h3 := h2 rest
  rw [Function.update_idem] at h3
  rw [← h3]
  show (match act zero name merged g .create with
    | none => (g, false)
    | some g' => mergeTask zero name merged (cs.map Action.copy ++ rest) g') = _
  simp only [act, ho, Option.bind_some, hv, if_true, addDset, hm]

theorem merge_delete (zero : α) {name merged : Nat} (hne : name ≠ merged) {g : Nat → Option (Dset α)} {old new : Dset α} (ho : g name = some old)
    (hm : g merged = none) :
    mergeTask zero name merged [.delete] (Function.update g merged (some new)) = (Function.update (Function.update g merged (some new)) name none, true) ∧
    mergeTask zero name merged [.delete, .move] (Function.update g merged (some new)) = (Function.update g name (some new), true) := by
  have e1 : (Function.update g merged (some new)) name = some old := by rw [Function.update_of_ne hne]; exact ho
  have e2 : (Function.update (Function.update g merged (some new)) name none) merged = some new := by
    rw [Function.update_of_ne hne.symm, Function.update_self]
  have e3 : (Function.update (Function.update (Function.update g merged (some new)) name none) merged none) name = none := by
    rw [Function.update_of_ne hne, Function.update_self]
  refine ⟨by simp only [mergeTask, act, e1, Option.map_some], ?_⟩
  simp only [mergeTask, act, e1, Option.map_some, e2, Option.bind_some, addDset, e3]
  congr 1
  funext n
  by_cases hn : n = name
  · subst hn; simp
  · by_cases hn' : n = merged
    · subst hn'; rw [Function.update_of_ne hn, Function.update_self, Function.update_of_ne hn, hm]
    · rw [Function.update_of_ne hn, Function.update_of_ne hn', Function.update_of_ne hn, Function.update_of_ne hn', Function.update_of_ne hn]

/-- C88. `merge_task` on a virtual dataset, if no dataset has the new name: it ends without exception; with `overwrite` the dataset is then a
plain one with the same entries and nothing is left under the new name, without `overwrite` the plain one is under the new name. Other
datasets stay as they are. -/
theorem merge_task_result (zero : α) (name merged : Nat) (hne : name ≠ merged) (g : Nat → Option (Dset α)) (old : Dset α) (ho : g name = some old)
    (hv : old.isVirtual = true) (hm : g merged = none) (hs : ∀ e ∈ old.entries, e.shape = old.shape) (chunks : List ((Nat × Nat) × Part))
    (hc : Covers chunks old.entries.length old.shape) :
    ∃ new, new.isVirtual = false ∧ Equal new old ∧
      mergeTask zero name merged (mergeActions chunks true) g = (Function.update g name (some new), true) ∧
      mergeTask zero name merged (mergeActions chunks false) g = (Function.update g merged (some new), true) := by
  obtain ⟨new, h1, h2⟩ := merge_start zero name merged hne g old ho hv hm hs chunks
  refine ⟨new, h1.plain, copied_equal h1 hs hc, ?_, ?_⟩
  · exact (h2 [.delete, .move]).trans (merge_delete zero hne ho hm).2
  · exact h2 []

theorem take_actions (chunks : List ((Nat × Nat) × Part)) (overwrite : Bool) (k : Nat) (hk : 0 < k) :
    ∃ cs tail, (mergeActions chunks overwrite : List (Action α)).take k = .create :: (cs.map Action.copy ++ tail) ∧
      (tail = [] ∨ (overwrite = true ∧ cs = chunks ∧ (tail = [.delete] ∨ (tail = [.delete, .move] ∧ chunks.length + 3 ≤ k)))) := by
  obtain ⟨j, rfl⟩ : ∃ j, k = j + 1 := ⟨k - 1, by omega⟩
  refine ⟨chunks.take j, (if overwrite then [Action.delete, .move] else []).take (j - chunks.length), ?_, ?_⟩
  · show List.take (j + 1) (Action.create :: (chunks.map Action.copy ++ if overwrite then [.delete, .move] else [])) = _
    rw [List.take_succ_cons, List.take_append, List.map_take, List.length_map]
  · cases overwrite with
    | false => left; simp
    | true =>
      rw [if_pos rfl]
      rcases Nat.lt_or_ge chunks.length j with h | h
      · right
        refine ⟨rfl, List.take_of_length_le (by omega), ?_⟩
        rcases Nat.lt_or_ge (chunks.length + 1) j with h' | h'
        · right
          exact ⟨List.take_of_length_le (by show 2 ≤ _; omega), by omega⟩
        · left
          have : j - chunks.length = 1 := by omega
          rw [this]; rfl
      · left
        have : j - chunks.length = 0 := by omega
        rw [this]; rfl

/-- C88. If `merge_task` is stopped after any number of actions, all entries of the dataset are still there, under its name or under the new
one, and the other datasets are as before. -/
theorem merge_task_crash (zero : α) (name merged : Nat) (hne : name ≠ merged) (g : Nat → Option (Dset α)) (old : Dset α) (ho : g name = some old)
    (hv : old.isVirtual = true) (hm : g merged = none) (hs : ∀ e ∈ old.entries, e.shape = old.shape) (chunks : List ((Nat × Nat) × Part))
    (hc : Covers chunks old.entries.length old.shape) (overwrite : Bool) (k : Nat) :
    (∃ d, ((mergeTask zero name merged ((mergeActions chunks overwrite).take k) g).1 name = some d ∨
      (mergeTask zero name merged ((mergeActions chunks overwrite).take k) g).1 merged = some d) ∧ Equal d old) ∧
    ∀ n, n ≠ name → n ≠ merged → (mergeTask zero name merged ((mergeActions chunks overwrite).take k) g).1 n = g n := by
  have hrefl : Equal old old := ⟨rfl, List.forall₂_same.mpr fun x _ => same_refl x⟩
  rcases Nat.eq_zero_or_pos k with rfl | hk
  · exact ⟨⟨old, .inl ho, hrefl⟩, fun n _ _ => rfl⟩
  obtain ⟨cs, tail, e, ht⟩ := take_actions (α := α) chunks overwrite k hk
  obtain ⟨new, h1, h2⟩ := merge_start zero name merged hne g old ho hv hm hs cs
  rw [e, h2]
  rcases ht with rfl | ⟨_, rfl, rfl | ⟨rfl, _⟩⟩
  · refine ⟨⟨old, .inl ?_, hrefl⟩, fun n _ h4 => Function.update_of_ne h4 _ _⟩
    show Function.update g merged (some new) name = _
    rw [Function.update_of_ne hne, ho]
  · rw [(merge_delete zero hne ho hm).1]
    refine ⟨⟨new, .inr ?_, copied_equal h1 hs hc⟩, fun n h3 h4 => ?_⟩
    · dsimp only; rw [Function.update_of_ne hne.symm, Function.update_self]
    · dsimp only; rw [Function.update_of_ne h3, Function.update_of_ne h4]
  · rw [(merge_delete zero hne ho hm).2]
    exact ⟨⟨new, .inl (Function.update_self _ _ _), copied_equal h1 hs hc⟩, fun n h3 _ => Function.update_of_ne h3 _ _⟩

/-- C88, what fails: a run that was stopped before its end cannot be repeated. The next run ends with an exception and changes nothing, since
the new name is taken, or since the old one is gone. -/
theorem merge_task_retry_refuted (zero : α) (name merged : Nat) (hne : name ≠ merged) (g : Nat → Option (Dset α)) (old : Dset α)
    (ho : g name = some old) (hv : old.isVirtual = true) (hm : g merged = none) (hs : ∀ e ∈ old.entries, e.shape = old.shape)
    (chunks chunks' : List ((Nat × Nat) × Part)) (k : Nat) (hk : 0 < k) (hk' : k < (mergeActions chunks true : List (Action α)).length)
    (overwrite : Bool) :
    mergeTask zero name merged (mergeActions chunks' overwrite) (mergeTask zero name merged ((mergeActions chunks true).take k) g).1 =
      ((mergeTask zero name merged ((mergeActions chunks true).take k) g).1, false) := by
  obtain ⟨cs, tail, e, ht⟩ := take_actions (α := α) chunks true k hk
  obtain ⟨new, h1, h2⟩ := merge_start zero name merged hne g old ho hv hm hs cs
  have hfail : ∀ g' : Nat → Option (Dset α), act zero name merged g' .create = none →
      mergeTask zero name merged (mergeActions chunks' overwrite) g' = (g', false) := by
    intro g' hg'
    show (match act zero name merged g' .create with
      | none => (g', false)
      | some g'' => mergeTask zero name merged _ g'') = _
    rw [hg']
  rw [e, h2]
  apply hfail
  rcases ht with rfl | ⟨_, rfl, rfl | ⟨rfl, hl⟩⟩
  · show act zero name merged (Function.update g merged (some new)) .create = none
    have e1 : (Function.update g merged (some new)) name = some old := by rw [Function.update_of_ne hne]; exact ho
    simp only [act, e1, Option.bind_some, hv, if_true, addDset, Function.update_self]
  · rw [(merge_delete zero hne ho hm).1]
    simp only [act, Function.update_self, Option.bind_none]
  · simp only [mergeActions, if_true, List.length_append, List.length_cons, List.length_map, List.length_nil] at hk'
    omega

/-- The hypotheses of C88 are met: a virtual dataset with three entries, in two chunks. -/
def demoDset : Dset Int := ⟨true, [2], [⟨[2], fun _ => some 1⟩, ⟨[2], fun _ => some 2⟩, ⟨[2], fun _ => some 3⟩]⟩

def demoChunks : List ((Nat × Nat) × Part) := [((0, 2), ⟨[0], [2]⟩), ((2, 4), ⟨[0], [2]⟩)]

theorem demo_covers : Covers demoChunks demoDset.entries.length demoDset.shape := by
  intro w hw idx hi
  have hw' : w < 3 := hw
  match idx, hi with
  | [i], .cons h .nil =>
    have h : i < 2 := h
    have hr : List.Forall₂ (fun i (r : Nat × Nat) => r.1 ≤ i ∧ i < r.1 + r.2) [i] [(0, 2)] := .cons ⟨Nat.zero_le _, by show i < 0 + 2; omega⟩ .nil
    by_cases h2 : w < 2
    · exact ⟨((0, 2), ⟨[0], [2]⟩), by simp [demoChunks], Nat.zero_le _, h2, hr, rfl⟩
    · exact ⟨((2, 4), ⟨[0], [2]⟩), by simp [demoChunks], by show 2 ≤ w; omega, by show w < 4; omega, hr, rfl⟩

example : ∃ new, new.isVirtual = false ∧ Equal new demoDset ∧
    (mergeTask (0 : Int) 0 1 (mergeActions demoChunks true) (fun n => if n = 0 then some demoDset else none)).1 0 = some new := by
  obtain ⟨new, h1, h2, h3, _⟩ := merge_task_result (0 : Int) 0 1 (by decide) (fun n => if n = 0 then some demoDset else none) demoDset rfl rfl rfl
    (by simp [demoDset]) demoChunks demo_covers
  exact ⟨new, h1, h2, by rw [h3]; simp⟩

/-! ## C89 -/

/-- C89, what fails. Merging the file of a virtual handler with `merge_virtual_file`: the attribute `task_number`, which is read for each task, is
not written. So the run ends with an exception after the first task, for every list of tasks: the file then has only this task and no virtual
datasets, and the virtual file is left under the temporary name. -/
theorem merge_virtual_file_refuted (t : Nat) (tasks : List Nat) (cleanup folder : Bool) (hf : folder = true) :
    mergeSetup true fileAttrs dsetAttrs (t :: tasks) = .keyError "task_number" [t] ∧
    mergeVirtualFile (t :: tasks) cleanup ⟨some .virtual, none, folder⟩ = ⟨some (.real [t]), some .virtual, folder⟩ := by
  have h : mergeSetup true fileAttrs dsetAttrs (t :: tasks) = .keyError "task_number" [t] := by
    simp [mergeSetup, fileAttrs, dsetAttrs, setupTasks]
  refine ⟨h, ?_⟩
  subst hf
  rw [mergeVirtualFile, h]
  simp [Post.mergeVirtual, Post.copied]

/-- C89, what fails. A second run then moves the incomplete file over the virtual file: with two tasks or more, nothing refers to the data of the
others any more; with `cleanup` the run would also remove the process files if it did not end with the same exception. -/
theorem merge_virtual_file_again_refuted (t u : Nat) (tasks : List Nat) (cleanup : Bool) :
    mergeVirtualFile (t :: u :: tasks) cleanup (mergeVirtualFile (t :: u :: tasks) cleanup ⟨some .virtual, none, true⟩) =
      ⟨some (.real [t]), some (.real [t]), true⟩ := by
  rw [(merge_virtual_file_refuted t (u :: tasks) cleanup true rfl).2]
  have h : mergeSetup true fileAttrs dsetAttrs (t :: u :: tasks) = .keyError "task_number" [t] := by
    simp [mergeSetup, fileAttrs, dsetAttrs, setupTasks]
  rw [mergeVirtualFile, h]
  simp [Post.mergeVirtual, Post.copied]

/-- C89, what fails. Merging the process files of a virtual handler with `merge_distributed_set`: the virtual joint file is replaced by an empty one,
then the attributes of the process file are read, which were not written. The time scales of the set are lost. -/
theorem merge_distributed_set_refuted (tasks : List Nat) (cleanup : Bool) (procs : List Nat) :
    mergeDistributedSet tasks cleanup ⟨some .virtual, procs⟩ = (⟨some (.real []), procs⟩, false) := by
  unfold mergeDistributedSet
  by_cases hp : procs = []
  · simp [hp]
  · simp [hp, mergeSetup, procFileAttrs]

/-- C89, the part that holds: the process files, which hold the data of the tasks, are all kept by `merge_distributed_set`, whatever is asked. -/
theorem merge_distributed_set_partial (tasks : List Nat) (cleanup : Bool) (joint : Option Post.HFile) (procs : List Nat) :
    (mergeDistributedSet tasks cleanup ⟨joint, procs⟩).1.procs = procs := by
  unfold mergeDistributedSet
  by_cases hp : procs = []
  · simp [hp]
  · simp [hp, mergeSetup, procFileAttrs]

end Dedalus.Output
