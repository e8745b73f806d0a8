import Verif.Post.Lemmas

/-!
# C35: every write is assigned to exactly one process. C36: merging output files
-/

namespace Dedalus.Post

variable {V : Type}

/-- The write `w` of set `k` is visited by process `rank`. -/
def Visited (size rank : Nat) (writes : List Nat) (k w : Nat) : Prop :=
  ∃ s c : Int, (k, s, c) ∈ visits size rank writes ∧ s ≤ w ∧ (w : Int) < s + c

theorem mem_visits {size rank : Nat} {writes : List Nat} {k : Nat} {s c : Int} :
    (k, s, c) ∈ visits size rank writes ↔ (assignedWrites size rank writes)[k]? = some (s, c) ∧ c ≠ 0 := by
  unfold visits
  simp only [List.mem_filter, List.mem_map, decide_eq_true_eq, Prod.mk.injEq, Prod.exists]
  constructor
  · rintro ⟨⟨a, b, n, h1, h2, h3, h4⟩, h5⟩
    subst h2; subst h3; subst h4
    exact ⟨List.mem_zipIdx_iff_getElem?.mp h1, h5⟩
  · rintro ⟨h1, h2⟩
    exact ⟨⟨s, c, k, List.mem_zipIdx_iff_getElem?.mpr h1, rfl, rfl, rfl⟩, h2⟩

theorem ceil_mul (total size : Nat) (hs : 0 < size) : total ≤ size * blockSize total size ∧
    (blockSize total size - 1) * size < total ∨ total = 0 ∧ blockSize total size = 0 := by
  unfold blockSize
  by_cases h : total = 0
  · right
    refine ⟨h, ?_⟩
    rw [h]
    exact Nat.div_eq_of_lt (by omega)
  · left
    have h1 := Nat.div_add_mod (total + size - 1) size
    have h2 := Nat.mod_lt (total + size - 1) hs
    have h3 : (total + size - 1) / size * size = size * ((total + size - 1) / size) := Nat.mul_comm _ _
    rw [Nat.sub_mul]
    omega

/-- Process `rank` visits write `w` of set `k` exactly when the number of the write among all writes is in the block of
the process. -/
theorem visited_iff (size rank : Nat) (writes : List Nat) (k w n : Nat) (hk : writes[k]? = some n) (hw : w < n) :
    Visited size rank writes k w ↔
      rank * blockSize writes.sum size ≤ (writes.take k).sum + w ∧
      (writes.take k).sum + w < (rank + 1) * blockSize writes.sum size := by
  have hr : (rank + 1) * blockSize writes.sum size = rank * blockSize writes.sum size + blockSize writes.sum size := by
    rw [Nat.add_mul, Nat.one_mul]
  rw [hr]
  generalize hb : blockSize writes.sum size = b
  generalize ho : rank * b = o
  have hlen : k < (assignedWrites size rank writes).length := by
    rw [assignedWrites, assignedFrom_length]
    exact (List.getElem?_eq_some_iff.mp hk).1
  obtain ⟨⟨s, c⟩, hsc⟩ : ∃ x, (assignedWrites size rank writes)[k]? = some x := ⟨_, List.getElem?_eq_getElem hlen⟩
  have hsc' := hsc
  rw [assignedWrites, hb, ho] at hsc'
  obtain ⟨n', h1, h2, h3⟩ := mem_assignedFrom o b writes 0 k s c hsc'
  rw [hk] at h1
  cases h1
  simp only [clip, Nat.zero_add] at h2 h3
  unfold Visited
  constructor
  · rintro ⟨s', c', hv, h4, h5⟩
    rw [mem_visits, hsc] at hv
    obtain ⟨e, _⟩ := hv
    cases e
    omega
  · rintro ⟨h4, h5⟩
    refine ⟨s, c, mem_visits.mpr ⟨hsc, ?_⟩, ?_, ?_⟩ <;> omega

/-- C35. Every write of every set is visited by exactly one process. -/
theorem writes_visited_once (size : Nat) (hs : 0 < size) (writes : List Nat) (k w n : Nat) (hk : writes[k]? = some n)
    (hw : w < n) : ∃ rank, rank < size ∧ Visited size rank writes k w ∧
      ∀ r, r < size → Visited size r writes k w → r = rank := by
  have hlt : (writes.take k).sum + w < writes.sum := by
    have := take_sum_le writes k n hk
    omega
  rcases ceil_mul writes.sum size hs with ⟨h1, _⟩ | ⟨h1, _⟩
  · generalize hb : blockSize writes.sum size = b at h1
    generalize hg : (writes.take k).sum + w = g at hlt
    have hbpos : 0 < b := by
      cases b with
      | zero => omega
      | succ b => omega
    refine ⟨g / b, ?_, ?_, ?_⟩
    · rw [Nat.div_lt_iff_lt_mul hbpos]
      omega
    · rw [visited_iff size _ writes k w n hk hw, hb, hg]
      exact ⟨Nat.div_mul_le_self g b, by rw [Nat.add_mul, Nat.one_mul]; exact Nat.lt_div_mul_add hbpos⟩
    · intro r _ hv
      rw [visited_iff size r writes k w n hk hw, hb, hg] at hv
      have := (Nat.div_eq_iff hbpos (x := g) (y := r)).mpr (by
        rw [Nat.add_mul, Nat.one_mul] at hv
        constructor <;> omega)
      omega
  · omega

/-- C35. The calls on a process are about existing writes, and their number is at most the ceiling share: at most
any number of writes that suffices when all processes take it. -/
theorem visits_within_share (size rank : Nat) (hs : 0 < size) (writes : List Nat) :
    (∀ k s c, (k, s, c) ∈ visits size rank writes → ∃ n, writes[k]? = some n ∧ 0 ≤ s ∧ 0 < c ∧ s + c ≤ n) ∧
    (∀ share : Nat, writes.sum ≤ share * size → ((visits size rank writes).map fun v => v.2.2).sum ≤ share) := by
  constructor
  · intro k s c h
    rw [mem_visits] at h
    obtain ⟨h, hc⟩ := h
    obtain ⟨n, h1, h2, h3⟩ := mem_assignedFrom _ _ writes 0 k s c h
    refine ⟨n, h1, ?_⟩
    simp only [clip] at h2 h3
    omega
  · intro share hshare
    have hb : blockSize writes.sum size ≤ share := by
      unfold blockSize
      rw [← Nat.lt_succ_iff, Nat.div_lt_iff_lt_mul hs, Nat.succ_mul]
      omega
    have hf : ∀ l : List (Nat × Int × Int), ((l.filter fun v => v.2.2 ≠ 0).map fun v => v.2.2).sum =
        (l.map fun v => v.2.2).sum := by
      intro l
      induction l with
      | nil => rfl
      | cons v l ih =>
        by_cases h : v.2.2 = 0
        · rw [List.filter_cons_of_neg (by simp [h]), ih, List.map_cons, List.sum_cons, h, Int.zero_add]
        · rw [List.filter_cons_of_pos (by simp [h]), List.map_cons, List.sum_cons, ih, List.map_cons, List.sum_cons]
    have hz : ((assignedWrites size rank writes).zipIdx.map fun p => (p.2, p.1.1, p.1.2)).map (fun v => v.2.2) =
        (assignedWrites size rank writes).map Prod.snd := by
      rw [List.map_map]
      have : (((fun v => v.2.2) : Nat × Int × Int → Int) ∘ fun p : (Int × Int) × Nat => (p.2, p.1.1, p.1.2)) =
          Prod.snd ∘ Prod.fst := rfl
      rw [this, ← List.map_map, List.zipIdx_map_fst]
    rw [visits, hf, hz, assignedWrites, total_assigned]
    simp only [clip]
    omega

/-- Three sets, two processes. -/
example : visits 2 0 [2, 0, 3] = [(0, 0, 2), (2, 0, 1)] ∧ visits 2 1 [2, 0, 3] = [(2, 1, 2)] := by decide

/-- C35. The sets of a handler are divided between the processes: each set goes to exactly one process. -/
theorem sets_assigned_once {α : Type} (size : Nat) (hs : 0 < size) (l : List α) (hn : l.Nodup) (x : α) (hx : x ∈ l) :
    ∃ rank, rank < size ∧ x ∈ assignedSets size rank l ∧ ∀ r, r < size → x ∈ assignedSets size r l → r = rank := by
  have get : ∀ r k, (assignedSets size r l)[k]? = l[r + k * size]? := by
    intro r k
    rw [assignedSets, everyNth_get size hs _ _ _ (by rw [List.length_drop]; omega), List.getElem?_drop]
  obtain ⟨i, hi⟩ := List.mem_iff_getElem?.mp hx
  refine ⟨i % size, Nat.mod_lt _ hs, ?_, ?_⟩
  · refine List.mem_iff_getElem?.mpr ⟨i / size, ?_⟩
    rw [get, Nat.mul_comm, Nat.mod_add_div]
    exact hi
  · intro r hr h
    obtain ⟨k, hk⟩ := List.mem_iff_getElem?.mp h
    rw [get] at hk
    have : r + k * size = i := by
      obtain ⟨h1, e1⟩ := List.getElem?_eq_some_iff.mp hk
      obtain ⟨h2, e2⟩ := List.getElem?_eq_some_iff.mp hi
      exact (List.getElem_inj hn).mp (e1.trans e2.symm)
    rw [← this, Nat.add_mul_mod_self_right, Nat.mod_eq_of_lt hr]

/-! C36: distributed sets -/

theorem mergeOps_split (cleanup : Bool) (d : Disk V) : mergeOps cleanup d =
    (.create :: .setup d.procs :: d.procs.map (fun p => .merge p.2)) ++ .close ::
      (if cleanup then d.procs.map (fun p => .unlink p.1) ++ [.rmdir] else []) := rfl

theorem merging_ops {d : Disk V} : ∀ op ∈ (Op.create :: .setup d.procs :: d.procs.map (fun p => .merge p.2) : List (Op V)),
    (∀ r, op ≠ .unlink r) ∧ op ≠ .rmdir := by
  intro op h
  rcases List.mem_cons.mp h with e | h
  · subst e; exact ⟨(fun _ e => by cases e), (fun e => by cases e)⟩
  rcases List.mem_cons.mp h with e | h
  · subst e; exact ⟨(fun _ e => by cases e), (fun e => by cases e)⟩
  obtain ⟨p, _, e⟩ := List.mem_map.mp h
  subst e; exact ⟨(fun _ e => by cases e), (fun e => by cases e)⟩

theorem cleanup_ops {cleanup : Bool} {d : Disk V} : ∀ op ∈ (if cleanup then d.procs.map (fun p => Op.unlink p.1) ++ [.rmdir]
    else [] : List (Op V)), (∃ r, op = .unlink r) ∨ op = .rmdir := by
  intro op h
  cases cleanup with
  | false => cases h
  | true =>
    rcases List.mem_append.mp h with h | h
    · obtain ⟨p, _, e⟩ := List.mem_map.mp h
      exact .inl ⟨p.1, e.symm⟩
    · exact .inr (List.mem_singleton.mp h)

/-- The run up to the closing of the joint file. -/
theorem exec_to_close (zero : V) {d : Disk V} {W : Nat} {shape : List Nat} {g : Nat → List Nat → V}
    (h : Distributed d.procs W shape g) : ∃ j : Joint V, (j.writes = W ∧ j.shape = shape ∧
      ∀ w i, w < W → InShape shape i → j.data w i = g w i) ∧ ∀ ops,
      exec zero ((.create :: .setup d.procs :: d.procs.map (fun p => .merge p.2)) ++ .close :: ops) d none =
        exec zero ops { d with joint := some (.whole j) } none := by
  cases hp : d.procs with
  | nil => exact absurd hp h.nonempty
  | cons p ps =>
    have hmem : ∀ q, q ∈ p :: ps → q ∈ d.procs := fun q hq => by rw [hp]; exact hq
    have hw : p.2.writes = W := h.writes p (hmem p List.mem_cons_self)
    obtain ⟨j, h1, h2, h3, h4⟩ := exec_merges zero { d with joint := some .broken } (p :: ps)
      ⟨p.2.writes, p.2.shape, fun _ _ => zero⟩ (fun q hq => by rw [h.writes q (hmem q hq)]; exact hw.symm)
    refine ⟨j, ⟨by rw [h2]; exact hw, by rw [h3]; exact h.shapes p (hmem p List.mem_cons_self), ?_⟩, ?_⟩
    · intro w i hlt hi
      refine h4 w i (g w i) (fun q hq hb => ?_) (.inr ?_)
      · obtain ⟨l, hl, e⟩ := (inBlock_iff _ _ _ (h.axes q (hmem q hq))).mp hb
        rw [e, localIndex_global _ _ _ (h.axes q (hmem q hq)) hl]
        exact h.values q (hmem q hq) w l hlt hl
      obtain ⟨q, hq, hb⟩ := h.covers i hi
      exact ⟨q, by rw [← hp]; exact hq, (inBlock_iff _ _ _ (h.axes q hq)).mpr hb⟩
    · intro ops
      rw [List.cons_append, List.cons_append, exec, exec, h1, exec, hp]

/-- C36. A merge that runs to its end gives the global array, with or without cleanup, whatever was in the joint file
before. With cleanup the process files are gone, without it they are untouched. -/
theorem merge_gives_global (zero : V) (cleanup : Bool) (d : Disk V) (W : Nat) (shape : List Nat)
    (g : Nat → List Nat → V) (h : Distributed d.procs W shape g) :
    Merged (mergeFull zero cleanup d) W shape g ∧
    (cleanup = false → (mergeFull zero cleanup d).procs = d.procs ∧ (mergeFull zero cleanup d).folder = d.folder) ∧
    (cleanup = true → (mergeFull zero cleanup d).procs = [] ∧ (mergeFull zero cleanup d).folder = false) := by
  obtain ⟨j, ⟨hw, hs, hv⟩, he⟩ := exec_to_close zero h
  have e : mergeFull zero cleanup d = exec zero (if cleanup then d.procs.map (fun p => .unlink p.1) ++ [.rmdir] else [])
      { d with joint := some (.whole j) } none := by
    rw [mergeFull, mergeOps_split, he]
  refine ⟨⟨j, ?_, hw, hs, hv⟩, ?_, ?_⟩
  · rw [e, exec_cleanup zero _ _ _ cleanup_ops]
  · rintro rfl
    rw [e]
    exact ⟨rfl, rfl⟩
  · rintro rfl
    have := exec_unlinks zero none (d.procs.map Prod.fst) [.rmdir] { d with joint := some (.whole j) }
    rw [List.map_map] at this
    rw [e, if_pos rfl]
    have e2 : (d.procs.map (fun p => Op.unlink (V := V) p.1)) = d.procs.map ((fun r => Op.unlink r) ∘ Prod.fst) := rfl
    rw [e2, this]
    simp only [exec]
    refine ⟨?_, trivial⟩
    rw [List.filter_eq_nil_iff]
    intro p hp
    simp only [decide_not, Bool.not_eq_true', decide_eq_false_iff_not, Classical.not_not]
    exact List.mem_map_of_mem hp

theorem noLoss_of_procs {d : Disk V} {W : Nat} {shape : List Nat} {g : Nat → List Nat → V}
    (h : Distributed d.procs W shape g) : NoLoss d W shape g := by
  intro w i hw hi
  obtain ⟨p, hp, l, hl, e⟩ := h.covers i hi
  exact .inr ⟨p, hp, l, by rw [h.writes p hp]; exact hw, hl, e, by rw [e]; exact h.values p hp w l hw hl⟩

/-- C36, one run. If all process files are there, a run that is killed at any point loses nothing, with or without
cleanup. Missing: a run that follows one killed during cleanup (`merge_retry_refuted`). -/
theorem merge_crash_partial (zero : V) (cleanup : Bool) (k : Nat) (d : Disk V) (W : Nat) (shape : List Nat)
    (g : Nat → List Nat → V) (h : Distributed d.procs W shape g) : NoLoss (mergeRun zero cleanup k d) W shape g := by
  let front : List (Op V) := .create :: .setup d.procs :: d.procs.map (fun p => .merge p.2)
  by_cases hk : k ≤ front.length
  · have e : (mergeRun zero cleanup k d).procs = d.procs := by
      rw [mergeRun, mergeOps_split, List.take_append_of_le_length hk]
      exact (exec_merging_procs zero _ _ _ (fun op hop => merging_ops op (List.mem_of_mem_take hop))).1
    exact noLoss_of_procs (e ▸ h)
  · obtain ⟨j, ⟨hw, hs, hv⟩, he⟩ := exec_to_close zero h
    obtain ⟨m, hm⟩ : ∃ m, k = front.length + (m + 1) := ⟨k - front.length - 1, by omega⟩
    have e : (mergeRun zero cleanup k d).joint = some (.whole j) := by
      rw [mergeRun, mergeOps_split, hm, List.take_length_add_append, List.take_succ_cons, he,
        exec_cleanup zero _ _ _ (fun op hop => cleanup_ops op (List.mem_of_mem_take hop))]
    intro w i hlt hi
    exact .inl ⟨j, e, by rw [hw]; exact hlt, by rw [hs]; exact hi, hv w i hlt hi⟩

/-- C36 without cleanup: after any number of runs killed at any points, the process files are still those of the set, so
the next run that ends gives the global array (`merge_gives_global`). -/
theorem merge_retries (zero : V) (ks : List Nat) (d : Disk V) (W : Nat) (shape : List Nat)
    (g : Nat → List Nat → V) (h : Distributed d.procs W shape g) :
    Distributed (ks.foldl (fun d k => mergeRun zero false k d) d).procs W shape g := by
  induction ks generalizing d with
  | nil => exact h
  | cons k ks ih =>
    rw [List.foldl_cons]
    apply ih
    have e : (mergeRun zero false k d).procs = d.procs := by
      refine (exec_merging_procs zero _ _ _ (fun op hop => ?_)).1
      have hop := List.mem_of_mem_take hop
      rw [mergeOps_split] at hop
      rcases List.mem_append.mp hop with h1 | h1
      · exact merging_ops op h1
      · rcases List.mem_cons.mp h1 with h1 | h1
        · subst h1; exact ⟨(fun _ e => by cases e), (fun e => by cases e)⟩
        · cases h1
    rw [e]
    exact h

/-- Two processes with half of an array of length two each, and one write. -/
def exDisk : Disk Nat where
  procs := [(0, ⟨[0], [1], [2], 1, fun _ _ => 5⟩), (1, ⟨[1], [1], [2], 1, fun _ _ => 7⟩)]
  folder := true
  joint := none

def exGlobal : Nat → List Nat → Nat := fun _ i => if i = [0] then 5 else 7

theorem ex_block (l : List Nat) (h : InShape [1] l) : l = [0] := by
  match l, h with
  | [a], h =>
    have : a < 1 := h.1
    congr 1
    omega
  | [], h => cases h
  | a :: b :: l, h => cases h.2

theorem ex_shape (i : List Nat) (h : InShape [2] i) : i = [0] ∨ i = [1] := by
  match i, h with
  | [a], h =>
    have : a < 2 := h.1
    have : a = 0 ∨ a = 1 := by omega
    rcases this with rfl | rfl
    · exact .inl rfl
    · exact .inr rfl
  | [], h => cases h
  | a :: b :: l, h => cases h.2

theorem exDisk_distributed : Distributed exDisk.procs 1 [2] exGlobal where
  nonempty := by simp [exDisk]
  writes := by
    intro p hp
    simp only [exDisk, List.mem_cons, List.not_mem_nil, or_false] at hp
    rcases hp with rfl | rfl <;> rfl
  shapes := by
    intro p hp
    simp only [exDisk, List.mem_cons, List.not_mem_nil, or_false] at hp
    rcases hp with rfl | rfl <;> rfl
  covers := by
    intro i hi
    rcases ex_shape i hi with rfl | rfl
    · exact ⟨_, List.mem_cons_self, [0], ⟨by decide, trivial⟩, rfl⟩
    · exact ⟨_, List.mem_cons_of_mem _ List.mem_cons_self, [0], ⟨by decide, trivial⟩, rfl⟩
  axes := by
    intro p hp
    simp only [exDisk, List.mem_cons, List.not_mem_nil, or_false] at hp
    rcases hp with rfl | rfl <;> rfl
  values := by
    intro p hp w i _ hb
    simp only [exDisk, List.mem_cons, List.not_mem_nil, or_false] at hp
    rcases hp with rfl | rfl
    · rw [ex_block i hb]; rfl
    · rw [ex_block i hb]; rfl
  ranks := by decide

/-- C36 fails with cleanup: a run killed after it has removed the first process file, followed by a run that ends normally,
loses the data of the first process, since the second run overwrites the joint file. -/
theorem merge_retry_refuted :
    ¬ ∀ (d : Disk Nat) (W : Nat) (shape : List Nat) (g : Nat → List Nat → Nat) (k : Nat),
      Distributed d.procs W shape g → NoLoss (mergeFull 0 true (mergeRun 0 true k d)) W shape g := by
  intro H
  have h := H exDisk 1 [2] exGlobal 6 exDisk_distributed 0 [0] (by omega) (by simp [InShape])
  rcases h with ⟨j, hj, _, _, hv⟩ | ⟨p, hp, _⟩
  · have e : ∃ j', (mergeFull 0 true (mergeRun 0 true 6 exDisk)).joint = some (.whole j') ∧ j'.data 0 [0] = 0 :=
      ⟨_, rfl, by decide⟩
    obtain ⟨j', e1, e2⟩ := e
    rw [e1] at hj
    cases hj
    rw [e2] at hv
    exact absurd hv (by decide)
  · have e : (mergeFull 0 true (mergeRun 0 true 6 exDisk)).procs = [] := rfl
    rw [e] at hp
    cases hp

/-- C36 fails for files with different numbers of writes: if the file of one process has a single write (the run was
stopped while writing), its data are repeated for all writes and no error is raised. -/
theorem merge_writes_refuted :
    ¬ ∀ (d : Disk Nat) (j : Joint Nat) (p : Nat × ProcFile Nat) (w : Nat) (i : List Nat),
      (mergeFull 0 false d).joint = some (.whole j) → p ∈ d.procs → (∃ l, InShape p.2.count l ∧ i = globalIndex p.2.start l) →
      InShape j.shape i → w < j.writes → p.2.writes ≤ w → j.data w i = 0 := by
  intro H
  let d : Disk Nat := ⟨[(0, ⟨[0], [1], [2], 2, fun _ _ => 5⟩), (1, ⟨[1], [1], [2], 1, fun _ _ => 7⟩)], true, none⟩
  have := H d _ (1, ⟨[1], [1], [2], 1, fun _ _ => 7⟩) 1 [1] rfl (by simp [d])
    ⟨[0], ⟨by decide, trivial⟩, rfl⟩ (by simp [InShape])
    (by decide) (by decide)
  exact absurd this (by decide)

/-! C36: virtual files -/

/-- C36, virtual files, one run: whatever a temporary file of an earlier run contains, a run on the virtual file that
ends in any way loses nothing, and one that completes leaves a file with all tasks. Missing: a second run
with cleanup after one that ended with an exception (`merge_virtual_retry_refuted`). -/
theorem merge_virtual_partial (tasks : List Nat) (cleanup : Bool) (stop : Stop) (tmp : Option HFile) (t : Nat)
    (ht : t ∈ tasks) : VHolds (mergeVirtual tasks cleanup stop ⟨some .virtual, tmp, true⟩) t ∧
    (mergeVirtual tasks cleanup .never ⟨some .virtual, tmp, true⟩).main = some (.real tasks) := by
  have e : copied tasks true (some .virtual) = some tasks := rfl
  refine ⟨?_, rfl⟩
  unfold mergeVirtual
  simp only [e]
  cases stop with
  | never => exact .inr (.inl ⟨tasks, rfl, ht⟩)
  | killed k =>
    simp only
    split
    · exact .inl rfl
    · split
      · exact .inl rfl
      · split
        · exact .inl rfl
        · split
          · exact .inl rfl
          · exact .inr (.inl ⟨tasks, rfl, ht⟩)
  | raised k =>
    simp only
    split
    · exact .inl rfl
    · split
      · exact .inl rfl
      · split
        · exact .inl rfl
        · split
          · exact .inl rfl
          · exact .inr (.inl ⟨tasks, rfl, ht⟩)

/-- C36, virtual files: without cleanup the process files are never touched. -/
theorem merge_virtual_retries (tasks : List Nat) (stops : List Stop) (d : VDisk) :
    (stops.foldl (fun d s => mergeVirtual tasks false s d) d).folder = d.folder := by
  induction stops generalizing d with
  | nil => rfl
  | cons s stops ih =>
    rw [List.foldl_cons, ih]
    unfold mergeVirtual
    split
    · rfl
    · split
      · split <;> rfl
      · simp only
        split
        · rfl
        · split
          · rfl
          · split
            · rfl
            · split
              · rfl
              · split <;> rfl
        · split
          · rfl
          · split
            · rfl
            · split
              · rfl
              · split <;> rfl

/-- C36 fails for virtual files: an exception after the first of two tasks leaves a valid file with one task; running
again with cleanup takes that file for the virtual file and then deletes the process files. -/
theorem merge_virtual_retry_refuted :
    ¬ ∀ (tasks : List Nat) (stop : Stop) (t : Nat), t ∈ tasks →
      VHolds (mergeVirtual tasks true .never (mergeVirtual tasks true stop ⟨some .virtual, none, true⟩)) t := by
  intro H
  have h := H [0, 1] (.raised 3) 1 (by decide)
  have e : mergeVirtual [0, 1] true .never (mergeVirtual [0, 1] true (.raised 3) ⟨some .virtual, none, true⟩) =
    ⟨some (.real [0]), none, false⟩ := by decide
  rw [e] at h
  rcases h with h | ⟨ts, h1, h2⟩ | ⟨ts, h1, _⟩
  · cases h
  · cases h1
    exact absurd h2 (by decide)
  · cases h1

end Dedalus.Post
