import Verif.Transpose.PlanLemmas

/-!
# C04 and C05: transpose planning and grouped moves
-/

namespace Dedalus.Transpose
open Dedalus.Dist

/-- C04. The blocks of the FFTW planner are the blocks the layouts promise, for every size, chunk
size dividing it, process count and rank. -/
theorem fftw_blocks_match_layout (N C P r : Nat) (hC : 0 < C) (hd : C ∣ N) :
    List.range' (fftwBlock N C P r).1 ((fftwBlock N C P r).2 - (fftwBlock N C P r).1) =
      localElements false ⟨false, N, C, P, false⟩ r := by
  rw [localElements_eq]
  simp only [startChunk, stopChunk, fftwBlock, Bool.false_and, Bool.false_eq_true, if_false]
  have hN : N = C * ceilDiv N C := by rw [Nat.mul_comm, ceilDiv_dvd hC hd]
  generalize ceilDiv N C = n at *
  generalize ceilDiv n P = B
  have e1 : min (C * B * r) N = C * min n (B * r) := by
    rw [hN, Nat.mul_assoc, ← Nat.mul_min_mul_left, Nat.min_comm]
  have e2 : min (C * B * (r + 1)) N = C * min n (B * (r + 1)) := by
    rw [hN, Nat.mul_assoc, ← Nat.mul_min_mul_left, Nat.min_comm]
  rw [e1, e2, Nat.mul_sub]

/-- C04 fails for the alternative planner (`TRANSPOSE_LIBRARY = mpi`): it ignores chunks, and its
blocks differ from the layout's, here for six real Fourier modes (chunks of two) on two processes. -/
theorem mpi_blocks_match_layout_refuted :
    ∃ N C P r : Nat, 0 < C ∧ C ∣ N ∧ r < P ∧
      List.range' (mpiBlock N P r).1 ((mpiBlock N P r).2 - (mpiBlock N P r).1) ≠
        localElements false ⟨false, N, C, P, false⟩ r :=
  ⟨6, 2, 2, 0, by decide, by decide, by decide, by decide⟩

/-- The alternative planner agrees with the layouts when chunks have size one. -/
theorem mpi_blocks_match_layout_partial (N P r : Nat) :
    List.range' (mpiBlock N P r).1 ((mpiBlock N P r).2 - (mpiBlock N P r).1) =
      localElements false ⟨false, N, 1, P, false⟩ r := by
  rw [← fftw_blocks_match_layout N 1 P r (by omega) (one_dvd _)]
  have h1 : ceilDiv N 1 = N := by simp [ceilDiv]
  simp [fftwBlock, mpiBlock, h1]

/-- C04. All processes of one exchange (they differ only in the mesh coordinate of the transposed
axis) compute the same sub-shape, hence take the same branch in the planner and none waits for a
partner that skips the exchange. `pre`, `post` are the other coordinates. -/
theorem same_plan_across_partners (loc constant : List Bool) (mesh shape chunks : List Nat)
    (axis : Nat) (pre post : List Nat) (c c' : Nat)
    (hpre : pre.length = (loc.take axis).count false) (hax : loc[axis]? = some false) :
    subShape loc mesh shape chunks constant axis (pre ++ c :: post) =
      subShape loc mesh shape chunks constant axis (pre ++ c' :: post) ∧
    ∀ sub, subShape loc mesh shape chunks constant axis (pre ++ c :: post) = some sub →
      ∀ sub', subShape loc mesh shape chunks constant axis (pre ++ c' :: post) = some sub' →
        planKind sub chunks axis = planKind sub' chunks axis := by
  have key : subShape loc mesh shape chunks constant axis (pre ++ c :: post) =
      subShape loc mesh shape chunks constant axis (pre ++ c' :: post) := by
    unfold subShape
    have h := layoutElements_partner loc constant mesh shape chunks axis pre post c c' hpre hax
    rcases h1 : layoutElements loc mesh shape chunks constant false (pre ++ c :: post) with _ | els
    · rw [h1] at h
      rcases h2 : layoutElements loc mesh shape chunks constant false (pre ++ c' :: post) with _ | els'
      · rfl
      · rw [h2] at h; exact absurd h (by simp)
    · rw [h1] at h
      rcases h2 : layoutElements loc mesh shape chunks constant false (pre ++ c' :: post) with _ | els'
      · rw [h2] at h; exact absurd h (by simp)
      · rw [h2] at h
        simp only at h
        rcases h3 : shape[axis]? with _ | n
        · rfl
        rcases h4 : shape[axis+1]? with _ | n'
        · rfl
        simp only
        congr 2
        apply List.ext_getElem?
        intro a
        by_cases ha : a = axis
        · subst ha
          rw [List.getElem?_set, List.getElem?_set]
          simp only [if_true, List.length_map, h.1]
        · rw [List.getElem?_set_ne (Ne.symm ha), List.getElem?_set_ne (Ne.symm ha),
            List.getElem?_map, List.getElem?_map, h.2 a ha]
  refine ⟨key, ?_⟩
  intro sub h1 sub' h2
  rw [key, h2] at h1
  injection h1 with h1
  rw [h1]

/-- C04. When the planner decides "no change" (one chunk on each of the two axes), both layouts put
all data of these axes on mesh coordinate 0, so there is nothing to exchange. -/
theorem no_change_is_correct (n P : Nat) (hn : 0 < n) (hP : 0 < P) (k : Bool) (r : Nat) :
    localElements false ⟨false, n, n, P, k⟩ r = if r = 0 then List.range n else [] := by
  rw [localElements_eq]
  have h1 : ceilDiv n n = 1 := by
    have := ceilDiv_dvd hn (dvd_refl n)
    have h2 : ceilDiv n n * n = 1 * n := by omega
    exact Nat.eq_of_mul_eq_mul_right hn h2
  have h2 : ceilDiv 1 P = 1 := by
    have h0 := ceilDiv_pos (a := 1) (by omega) hP
    have h3 := ceilDiv_mul_lt (a := 1) hP
    by_contra h
    have : 2 * P ≤ ceilDiv 1 P * P := Nat.mul_le_mul_right _ (by omega)
    omega
  simp only [startChunk, stopChunk, Bool.false_and, Bool.false_eq_true, if_false, h1, h2]
  split
  · rename_i h; subst h; simp [List.range_eq_range']
  · have e1 : min 1 (1 * r) = 1 := by omega
    have e2 : min 1 (1 * (r + 1)) = 1 := by omega
    rw [e1, e2]; simp

theorem foldl_mul_zero (l : List Nat) : ∀ m, l.foldl (· * ·) m = 0 → m = 0 ∨ 0 ∈ l := by
  induction l with
  | nil => intro m h; exact Or.inl h
  | cons a as ih =>
    intro m h
    rcases ih _ h with h | h
    · rcases Nat.mul_eq_zero.1 h with h | h
      · exact Or.inl h
      · right; simp [h]
    · right; simp [h]

/-- C04. Whenever the planner skips the exchange, skipping is right: either some extent of the
processes' joint data is 0, or every process owns the same elements `(i, j)` of the two axes before
and after (in the first layout `i` is distributed and `j` local, in the second the reverse). -/
theorem skip_is_safe (sub chunk : List Nat) (axis n n' c c' P : Nat) (hP : 0 < P)
    (hn : sub[axis]? = some n) (hn' : sub[axis+1]? = some n') (hc : chunk[axis]? = some c)
    (hc' : chunk[axis+1]? = some c') (hskip : planKind sub chunk axis ≠ .communicate) (k k' : Bool) :
    0 ∈ sub ∨ ∀ r i j,
      (i ∈ localElements false ⟨false, n, c, P, k⟩ r ∧ j ∈ List.range n') ↔
      (i ∈ List.range n ∧ j ∈ localElements false ⟨false, n', c', P, k'⟩ r) := by
  unfold planKind at hskip
  split at hskip
  · next h =>
    rcases foldl_mul_zero _ _ h with h | h
    · exact absurd h (by omega)
    · exact Or.inl h
  · next h0 =>
    split at hskip
    · next h =>
      rw [hn, hc, hn', hc'] at h
      obtain ⟨h1, h2⟩ := h
      cases h1; cases h2
      by_cases hz : n = 0
      · left; exact hz ▸ List.mem_of_getElem? hn
      by_cases hz' : n' = 0
      · left; exact hz' ▸ List.mem_of_getElem? hn'
      right
      intro r i j
      rw [no_change_is_correct n P (by omega) hP, no_change_is_correct n' P (by omega) hP]
      by_cases hr : r = 0 <;> simp [hr]
    · exact absurd rfl hskip

-- One chunk of 6 on one axis, one chunk of 4 on the other, three processes: skipped.
example : 0 ∈ [5, 6, 4] ∨ ∀ r i j,
      (i ∈ localElements false ⟨false, 6, 6, 3, false⟩ r ∧ j ∈ List.range 4) ↔
      (i ∈ List.range 6 ∧ j ∈ localElements false ⟨false, 4, 4, 3, false⟩ r) :=
  skip_is_safe [5, 6, 4] [1, 6, 4] 1 6 4 6 4 3 (by omega) rfl rfl rfl rfl (by decide) false false

variable {K α : Type} [DecidableEq K]

/-- C05. Incrementing a group of distinct fields gives each of them the same label and data as
incrementing it alone, with or without grouping. -/
theorem increment_group_eq_single (P : Plans K α) (group : Bool) (s : Store K α) (is : List Nat)
    (hn : is.Nodup) :
    increment P group s is = is.foldl (incSingle P) s ∧
    ∀ j, increment P group s is j = if j ∈ is then
      { (s j) with upper := true, comps := if P.hasPlan (s j).key then
          (s j).comps.map (P.up (s j).key) else (s j).comps } else s j := by
  have hone : is.foldl (incSingle P) s = fun j => if j ∈ is then movedUp P (s j) else s j := by
    have : (incSingle P) = fun s i => Function.update s i (movedUp P (s i)) := by
      funext s i; exact incSingle_eq P s i
    rw [this]; exact foldl_update (movedUp P) is hn s
  have hall : increment P group s is = is.foldl (incSingle P) s := by
    unfold increment
    split
    · rfl
    · split
      · obtain ⟨hk, hp⟩ := groupPlans_inv s is
        rw [foldl_groups' (incGroupOne P) (movedUp P) (fun _ => rfl) (fun _ => True)
          (fun s g a b _ => incGroupOne_eq P s g a b) _ _ (hp.nodup_iff.2 hn) hk (fun _ _ => trivial)]
        rw [hone]
        funext j
        simp only [hp.mem_iff]
      · rfl
  refine ⟨hall, ?_⟩
  intro j
  rw [hall, hone]; rfl

/-- C05 fails for the decrementing direction: with grouping on (the default) two fields that need no
communication are left labelled with the upper layout. -/
theorem decrement_group_eq_single_refuted :
    ∃ (P : Plans Nat Nat) (s : Store Nat Nat) (is : List Nat), is.Nodup ∧
      (decrement P true s is 0).upper ≠ (is.foldl (decSingle P) s 0).upper :=
  ⟨⟨fun _ => false, fun _ => id, fun _ => id⟩, fun _ => ⟨0, [7], true⟩, [0, 1], by decide, by decide⟩

/-- C05, what does hold when decrementing: without grouping, or when every field of the group takes
part in communication. Missing: groups containing a field without a plan (constant or empty along
the transposed axes), see `decrement_group_eq_single_refuted`. -/
theorem decrement_group_eq_single_partial (P : Plans K α) (group : Bool) (s : Store K α)
    (is : List Nat) (hn : is.Nodup)
    (h : group = false ∨ is.length = 1 ∨ ∀ i ∈ is, P.hasPlan (s i).key = true) :
    decrement P group s is = is.foldl (decSingle P) s ∧
    ∀ j, decrement P group s is j = if j ∈ is then
      { (s j) with upper := false, comps := if P.hasPlan (s j).key then
          (s j).comps.map (P.down (s j).key) else (s j).comps } else s j := by
  have hone : is.foldl (decSingle P) s = fun j => if j ∈ is then movedDown P (s j) else s j := by
    have : (decSingle P) = fun s i => Function.update s i (movedDown P (s i)) := by
      funext s i; exact decSingle_eq P s i
    rw [this]; exact foldl_update (movedDown P) is hn s
  have hall : decrement P group s is = is.foldl (decSingle P) s := by
    unfold decrement
    split
    · rfl
    · rename_i hne
      split
      · rename_i hg
        have hok : ∀ i ∈ is, P.hasPlan (s i).key = true := by
          rcases h with h | h | h
          · simp [hg] at h
          · obtain ⟨a, ha⟩ := List.length_eq_one_iff.1 h
            exact absurd ha (hne a)
          · exact h
        obtain ⟨hk, hp⟩ := groupPlans_inv s is
        have hgok : ∀ g ∈ groupPlans s is, P.hasPlan g.1 = true ∨ g.2 = [] := by
          intro g hg
          rcases hg2 : g.2 with _ | ⟨i, t⟩
          · right; rfl
          · left
            have hi : i ∈ g.2 := by simp [hg2]
            rw [← hk g hg i hi]
            apply hok
            rw [← hp.mem_iff]
            exact List.mem_flatMap.2 ⟨g, hg, hi⟩
        rw [foldl_groups' (decGroupOne P) (movedDown P) (fun _ => rfl)
          (fun g => P.hasPlan g.1 = true ∨ g.2 = []) (by
            intro s g a b c
            rcases c with c | c
            · exact decGroupOne_eq P s g a b c
            · obtain ⟨k, l⟩ := g
              simp only at c; subst c
              unfold decGroupOne
              cases P.hasPlan k <;> simp [splitBack]) _ _ (hp.nodup_iff.2 hn) hk hgok]
        rw [hone]
        funext j
        simp only [hp.mem_iff]
      · rfl
  refine ⟨hall, ?_⟩
  intro j
  rw [hall, hone]; rfl

-- Hypotheses are met by a group of three fields of two kinds, all with plans.
example : ∃ (P : Plans Nat Nat) (s : Store Nat Nat), [0, 1, 2].Nodup ∧
    (∀ i ∈ [0, 1, 2], P.hasPlan (s i).key = true) ∧ (s 0).key ≠ (s 1).key :=
  ⟨⟨fun _ => true, fun _ => id, fun _ => id⟩, fun i => ⟨i % 2, [7, i], true⟩, by decide, by decide, by decide⟩
-- Hypotheses of `same_plan_across_partners` on a 2 x 2 mesh, transposing axes 1 and 2.
example : ([1] : List Nat).length = (([false, false, true] : List Bool).take 1).count false ∧
    ([false, false, true] : List Bool)[1]? = some false ∧
    subShape [false, false, true] [2, 2] [5, 6, 7] [1, 2, 1] [false, false, false] 1 ([1] ++ 0 :: []) =
      some [2, 6, 7] := by decide

end Dedalus.Transpose
