import Verif.Dist.BlockLemmas

/-!
# C01: block distribution, for all sizes, chunks, meshes and coordinates
-/

namespace Dedalus.Dist

/-- C01 (one axis). Every global index of a distributed axis is held by exactly one process
coordinate. The chunk size divides the axis size (see `chunk_not_dividing_refuted` for what
happens otherwise). -/
theorem owned_exactly_once (ax : Axis) (hl : ax.isLocal = false) (hc : 0 < ax.chunk)
    (hm : 0 < ax.mesh) (i : Nat) (hi : i < ax.size) :
    ∃! r, r < ax.mesh ∧ i ∈ localElements false ax r := by
  refine ⟨_, ⟨owner_lt hc hm hi, (mem_dist hl hc hm hi).2 rfl⟩, ?_⟩
  rintro r ⟨-, h⟩
  exact (mem_dist hl hc hm hi).1 h

/-- C01. Nothing outside the axis is ever held when the chunk size divides the axis size. -/
theorem elements_in_range (b : Bool) (ax : Axis) (hc : 0 < ax.chunk) (hd : ax.chunk ∣ ax.size)
    (r i : Nat) (hi : i ∈ localElements b ax r) : i < ax.size := by
  rw [mem_localElements hc] at hi
  have h1 : stopChunk b ax r ≤ ceilDiv ax.size ax.chunk := by
    unfold stopChunk; split
    · exact le_refl _
    · exact Nat.min_le_left _ _
  have h2 : i / ax.chunk < ceilDiv ax.size ax.chunk := by omega
  rw [Nat.div_lt_iff_lt_mul hc, ceilDiv_dvd hc hd] at h2
  exact h2

/-- C01. On a local axis every process holds every index. -/
theorem local_axis_holds_all (b : Bool) (ax : Axis) (hl : ax.isLocal = true) (hc : 0 < ax.chunk)
    (hd : ax.chunk ∣ ax.size) (r : Nat) : localElements b ax r = List.range ax.size := by
  rw [localElements_eq]
  simp only [startChunk, stopChunk, hl, if_true, Nat.mul_zero, Nat.sub_zero]
  rw [Nat.mul_comm, ceilDiv_dvd hc hd, List.range_eq_range']

/-- C01. Each process holds a contiguous ascending run, and the slice reported by `slices` selects
exactly that run. -/
theorem contiguous_run (b : Bool) (ax : Axis) (r : Nat) :
    localElements b ax r =
      List.range' (sliceOf (localElements b ax r)).1
        ((sliceOf (localElements b ax r)).2 - (sliceOf (localElements b ax r)).1) := by
  rw [localElements_eq]
  generalize ax.chunk * startChunk b ax r = s
  generalize ax.chunk * (stopChunk b ax r - startChunk b ax r) = n
  cases n with
  | zero => simp [sliceOf]
  | succ n =>
    rw [List.range'_succ]
    simp only [sliceOf]
    rw [foldl_min_range', foldl_max_range']
    rw [← List.range'_succ]
    congr 1; omega

/-- C01. Runs are ordered by process coordinate. -/
theorem runs_ordered (ax : Axis) (hl : ax.isLocal = false) (hc : 0 < ax.chunk)
    (r r' i i' : Nat) (hr : r < r') (hi : i ∈ localElements false ax r)
    (hi' : i' ∈ localElements false ax r') : i < i' := by
  rw [mem_localElements hc] at hi hi'
  have h : stopChunk false ax r ≤ startChunk false ax r' := by
    simp only [startChunk, stopChunk, hl, Bool.false_and, Bool.false_eq_true, if_false]
    exact min_le_min (le_refl _) (Nat.mul_le_mul_left _ hr)
  have : i / ax.chunk < i' / ax.chunk := by omega
  by_contra hcon
  have := Nat.div_le_div_right (c := ax.chunk) (Nat.le_of_not_lt hcon)
  omega

/-- C01. Indices of the same chunk are always held together. -/
theorem chunks_not_split (b : Bool) (ax : Axis) (hc : 0 < ax.chunk) (r i i' : Nat)
    (h : i / ax.chunk = i' / ax.chunk) :
    i ∈ localElements b ax r ↔ i' ∈ localElements b ax r := by
  rw [mem_localElements hc, mem_localElements hc, h]

/-- C01. The local sizes of all processes of a distributed axis add up to the global size. -/
theorem local_sizes_sum (ax : Axis) (hl : ax.isLocal = false) (hc : 0 < ax.chunk)
    (hm : 0 < ax.mesh) (hd : ax.chunk ∣ ax.size) :
    ((List.range ax.mesh).map (localSize ax)).sum = ax.size := by
  have h : ∀ P, ((List.range P).map (localSize ax)).sum = ax.chunk * startChunk false ax P := by
    intro P
    induction P with
    | zero => simp [startChunk, hl]
    | succ P ih =>
      rw [List.range_succ, List.map_append, List.sum_append, ih]
      simp only [List.map_cons, List.map_nil, List.sum_cons, List.sum_nil, Nat.add_zero, localSize]
      rw [localElements_eq, List.length_range', ← Nat.mul_add]
      have h1 := start_le_stop false ax P
      have h2 : stopChunk false ax P = startChunk false ax (P+1) := by
        simp [startChunk, stopChunk, hl]
      congr 1; omega
  rw [h]
  simp only [startChunk, hl, Bool.false_and, Bool.false_eq_true, if_false]
  rw [Nat.min_eq_left (ceilDiv_mul hm), Nat.mul_comm, ceilDiv_dvd hc hd]

/-- C01 (all axes). For every layout and every global multi-index there is exactly one process of
the mesh whose local elements contain it on every axis. -/
theorem owned_by_one_process (loc constant : List Bool) (mesh shape chunks idx : List Nat)
    (hk : constant.length = loc.length) (hmesh : mesh.length = loc.count false)
    (hpos : ∀ m ∈ mesh, 0 < m) (hlen : shape.length = loc.length)
    (hch : List.Forall₂ (fun c n => 0 < c ∧ c ∣ n) chunks shape)
    (hidx : List.Forall₂ (· < ·) idx shape) :
    ∃! coords, List.Forall₂ (· < ·) coords mesh ∧
      ∃ els, layoutElements loc mesh shape chunks constant false coords = some els ∧
        List.Forall₂ (· ∈ ·) idx els := by
  have hcl := hch.length_eq
  have hil := hidx.length_eq
  induction loc generalizing constant mesh shape chunks idx with
  | nil =>
    simp at hlen hmesh hk
    subst hlen; subst hmesh; subst hk
    simp at hcl hil; subst hcl; subst hil
    refine ⟨[], ⟨.nil, [], rfl, .nil⟩, ?_⟩
    rintro c ⟨h, -⟩
    simpa using h.length_eq
  | cons l ls ih =>
    cases shape with
    | nil => simp at hlen
    | cons n ns =>
    cases constant with
    | nil => simp at hk
    | cons k ks =>
    cases hch with
    | cons hc hcs =>
    rename_i c cs
    cases hidx with
    | cons hi his =>
    rename_i i is
    simp at hlen hk
    cases l with
    | true =>
      simp at hmesh
      obtain ⟨coords, ⟨hlt, els, hels, hmem⟩, huniq⟩ :=
        ih ks mesh ns cs is hk hmesh hpos hlen hcs his hcs.length_eq his.length_eq
      refine ⟨coords, ⟨hlt, _, layoutElements_cons_local hels, .cons ?_ hmem⟩, ?_⟩
      · rw [local_axis_holds_all false _ rfl hc.1 hc.2]; simpa using hi
      · rintro coords' ⟨hlt', els', hels', hmem'⟩
        obtain ⟨e, es, he, rfl, he2⟩ := layoutElements_cons_local_inv hels'
        cases hmem' with
        | cons _ hm' => exact huniq coords' ⟨hlt', es, he, hm'⟩
    | false =>
      cases mesh with
      | nil => simp at hmesh
      | cons m ms =>
      simp at hmesh
      have hm0 : 0 < m := hpos m (by simp)
      obtain ⟨coords, ⟨hlt, els, hels, hmem⟩, huniq⟩ :=
        ih ks ms ns cs is hk hmesh (fun x hx => hpos x (by simp [hx])) hlen hcs his
          hcs.length_eq his.length_eq
      obtain ⟨r, ⟨hr, hmr⟩, hru⟩ := owned_exactly_once ⟨false, n, c, m, k⟩ rfl hc.1 hm0 i hi
      refine ⟨r :: coords, ⟨.cons hr hlt, _, layoutElements_cons_dist r hels, .cons hmr hmem⟩, ?_⟩
      rintro coords' ⟨hlt', els', hels', hmem'⟩
      cases hlt' with
      | cons hr' hlt' =>
      rename_i r' cs'
      obtain ⟨e, es, he, rfl, he2⟩ := layoutElements_cons_dist_inv hels'
      cases hmem' with
      | cons hi' hm' =>
      rw [he2] at hi'
      rw [hru r' ⟨hr', hi'⟩, huniq cs' ⟨hlt', es, he, hm'⟩]

/-- With `broadcast`, every process of the mesh sees the single element of a constant axis
(used to hand constant operands to all processes). -/
theorem broadcast_constant (ax : Axis) (hk : ax.constant = true) (hs : ax.size = 1)
    (hc : ax.chunk = 1) (hm : 0 < ax.mesh) (r : Nat) : localElements true ax r = [0] := by
  rw [localElements_eq]
  have h1 : ceilDiv 1 1 = 1 := rfl
  have h2 : ceilDiv 1 ax.mesh = 1 := by
    have := ceilDiv_pos (a := 1) (by omega) hm
    have h3 := ceilDiv_mul_lt (a := 1) hm
    by_contra h
    have : 2 * ax.mesh ≤ ceilDiv 1 ax.mesh * ax.mesh := Nat.mul_le_mul_right _ (by omega)
    omega
  simp only [startChunk, stopChunk, hk, hs, hc, h1, h2, Bool.and_true, if_true]
  cases ax.isLocal <;> simp

/-- The divisibility guard is needed: a real Fourier basis of odd size (chunk 2) is accepted by
the code, but the elements reported for it run past the end of the axis. -/
theorem chunk_not_dividing_refuted :
    ∃ ax : Axis, 0 < ax.chunk ∧ 0 < ax.mesh ∧ ∃ r < ax.mesh, ∃ i ∈ localElements false ax r,
      ¬ i < ax.size :=
  ⟨⟨true, 5, 2, 1, false⟩, by decide, by decide, 0, by decide, 5, by decide, by decide⟩

-- Non-trivial instances of the hypotheses: 10 elements in chunks of 2 on 4 processes
-- (the last process holds nothing), and a 3-axis layout.
example : (List.range 4).map (localElements false ⟨false, 10, 2, 4, false⟩) =
    [[0, 1, 2, 3], [4, 5, 6, 7], [8, 9], []] := by decide
example : List.Forall₂ (fun c n => 0 < c ∧ c ∣ n) [1, 2, 1] [5, 10, 7] ∧
    List.Forall₂ (· < ·) [4, 9, 0] [5, 10, 7] ∧ [3, 2].length = [false, false, true].count false := by
  decide

end Dedalus.Dist
