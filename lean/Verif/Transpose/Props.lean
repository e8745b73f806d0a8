import Verif.Transpose.Lemmas

/-!
# C03: transposes move every element to its place and back
-/

namespace Dedalus.Transpose
open Dedalus.Dist

/-- Spec: every process holds, for its own columns and all rows, the values of the global array. -/
def HoldsColumns {α : Type} (g : Geom) (c : Cut) (G : Arr α) (CL : Nat → Arr α) : Prop :=
  ∀ r, r < g.P → ∀ n0 n1 n2 n3, n0 < g.N0 → n1 < g.N1 → n2 < c.colCount r → n3 < g.N3 →
    CL r (n0, n1, n2, n3) = G (n0, n1, c.colStart r + n2, n3)

/-- Spec: every process holds, for its own rows and all columns, the values of the global array. -/
def HoldsRows {α : Type} (g : Geom) (c : Cut) (G : Arr α) (RL : Nat → Arr α) : Prop :=
  ∀ r, r < g.P → ∀ n0 n1 n2 n3, n0 < g.N0 → n1 < c.rowCount r → n2 < g.N2 → n3 < g.N3 →
    RL r (n0, n1, n2, n3) = G (n0, c.rowStart r + n1, n2, n3)

theorem goodRows (g : Geom) (hP : 0 < g.P) :
    Consec (alltoallCut g).rowStart (alltoallCut g).rowEnd g.N1 g.P := consec_block g.N1 g.P hP
theorem goodCols (g : Geom) (hP : 0 < g.P) :
    Consec (alltoallCut g).colStart (alltoallCut g).colEnd g.N2 g.P := consec_block g.N2 g.P hP

theorem row_bound {g : Geom} {c : Cut} (h : Consec c.rowStart c.rowEnd g.N1 g.P) {q n : Nat}
    (hq : q < g.P) (hn : n < c.rowCount q) : c.rowStart q + n < g.N1 := by
  have h1 : c.rowStart q + n < c.rowStart (q+1) := by
    have := h.next q; unfold Cut.rowCount at hn; omega
  have h2 : ∀ k, c.rowStart (q+1) ≤ c.rowStart (q+1+k) := by
    intro k; induction k with
    | zero => exact le_refl _
    | succ k ih => exact le_trans ih (h.mono _)
  have h3 := h2 (g.P - (q+1))
  rw [show q + 1 + (g.P - (q+1)) = g.P by omega, h.top] at h3
  omega

theorem col_bound {g : Geom} {c : Cut} (h : Consec c.colStart c.colEnd g.N2 g.P) {q n : Nat}
    (hq : q < g.P) (hn : n < c.colCount q) : c.colStart q + n < g.N2 := by
  have h1 : c.colStart q + n < c.colStart (q+1) := by
    have := h.next q; unfold Cut.colCount at hn; omega
  have h2 : ∀ k, c.colStart (q+1) ≤ c.colStart (q+1+k) := by
    intro k; induction k with
    | zero => exact le_refl _
    | succ k ih => exact le_trans ih (h.mono _)
  have h3 := h2 (g.P - (q+1))
  rw [show q + 1 + (g.P - (q+1)) = g.P by omega, h.top] at h3
  omega

/-- C03. Localising rows turns the column distribution of any global array into its row
distribution, for all shapes, process counts and previous buffer contents; in particular no buffer
is overrun and all send and receive counts match (else the result would be `none`). -/
theorem localize_rows_correct {α : Type} (g : Geom) (hP : 0 < g.P) (G : Arr α)
    (clBuf rlBuf : Nat → List α) (CL RL : Nat → Arr α)
    (hcb : ∀ r, r < g.P → (clBuf r).length = clSize g (alltoallCut g) r)
    (hrb : ∀ r, r < g.P → (rlBuf r).length = rlSize g (alltoallCut g) r)
    (hCL : HoldsColumns g (alltoallCut g) G CL) :
    ∃ RL', localizeRows g (alltoallCut g) clBuf rlBuf CL RL = some RL' ∧
      HoldsRows g (alltoallCut g) G RL' := by
  set c := alltoallCut g with hc
  have hR := goodRows g hP
  have hC := goodCols g hP
  rw [← hc] at hR hC
  obtain ⟨send, hs, hs'⟩ := allRanks_some (P := g.P) (dflt := clBuf)
    (f := fun r => if c.colCount r > 0 then split (rowsOrder g c r) (CL r) (clBuf r) else some (clBuf r))
    (g := fun r => (rowsOrder g c r).map (CL r)) (by
      intro r hr
      have hl := rowsOrder_length hR r
      split
      · exact split_full (by rw [hl, hcb r hr])
      · rename_i h0
        have hz : c.colCount r = 0 := by omega
        have : clSize g c r = 0 := by simp [clSize, hz]
        have h1 : rowsOrder g c r = [] := List.eq_nil_of_length_eq_zero (by omega)
        have h2 : clBuf r = [] := List.eq_nil_of_length_eq_zero (by rw [hcb r hr]; exact this)
        simp [h1, h2])
  obtain ⟨recv, hr, hr'⟩ := allRanks_some (P := g.P) (dflt := rlBuf)
    (f := fun q => alltoallv g.P send (clCount g c) (clDispl g c) (rlCount g c) (rlDispl g c) rlBuf q)
    (g := fun q => (colsOrder g c q).map (fun t => G (t.1, c.rowStart q + t.2.1, t.2.2.1, t.2.2.2))) (by
      intro q hq
      show alltoallv g.P send (clCount g c) (clDispl g c) (rlCount g c) (rlDispl g c) rlBuf q = _
      have hseg : ∀ p, p < g.P → (blkRows g c p q).map (CL p) = (blkCols g c q p).map
          (fun t => G (t.1, c.rowStart q + t.2.1, t.2.2.1, t.2.2.2)) := by
        intro p hp
        apply blk_base g c p q G
        · intro n0 n1 n2 n3 h0 h1 h2 h3
          exact hCL p hp _ _ _ _ h0 (row_bound hR hq h1) h2 h3
        · intro n0 n1 n2 n3 h0 h1 h2 h3; rfl
      rw [alltoallv, recv_spec send _ _ _ _ q (fun p => (blkCols g c q p).map
        (fun t => G (t.1, c.rowStart q + t.2.1, t.2.2.1, t.2.2.2))) g.P (rlBuf q)]
      · rw [colsOrder_eq, List.map_flatMap]
      · intro p _; exact counts_match g c p q
      · intro p hp
        rw [hs' p hp, rowsOrder_eq, List.map_flatMap]
        rw [readSeg_flatMap _ _ _ _ _ hq, hseg p hp]
        · rw [clDispl_eq hR]; simp [blkRows_length]
        · simp [blkRows_length]
      · intro p _; rw [rlDispl_eq hC]; simp [blkCols_length]
      · rw [hrb q hq, ← colsOrder_length hC q, colsOrder_eq, List.length_flatMap]; simp)
  have hfin : ∀ q, q < g.P → ∃ A', (if c.rowCount q > 0 then combine (colsOrder g c q) (recv q) (RL q)
      else some (RL q)) = some A' ∧ (∀ n0 n1 n2 n3, n0 < g.N0 → n1 < c.rowCount q → n2 < g.N2 →
        n3 < g.N3 → A' (n0, n1, n2, n3) = G (n0, c.rowStart q + n1, n2, n3)) := by
    intro q hq
    by_cases h0 : c.rowCount q > 0
    · rw [if_pos h0, hr' q hq]
      obtain ⟨A', h1, h2⟩ := combine_map (colsOrder g c q)
        (fun t => G (t.1, c.rowStart q + t.2.1, t.2.2.1, t.2.2.2)) [] (RL q)
      rw [List.append_nil] at h1
      refine ⟨A', h1, ?_⟩
      intro n0 n1 n2 n3 a0 a1 a2 a3
      rw [h2, if_pos]
      rw [colsOrder_eq, List.mem_flatMap]
      obtain ⟨p, hp, hp1, hp2⟩ := mem_blocks hC a2
      refine ⟨p, by simpa using hp, ?_⟩
      unfold blkCols
      rw [mem_nest]
      refine ⟨by simpa using a0, by simpa using a1, ?_, by simpa using a3⟩
      rw [rng, List.mem_range'_1]; omega
    · rw [if_neg h0]
      exact ⟨RL q, rfl, fun _ _ _ _ _ h => by omega⟩
  obtain ⟨RL', h1, h2⟩ := allRanks_exists (P := g.P) (dflt := RL)
    (f := fun q => if c.rowCount q > 0 then combine (colsOrder g c q) (recv q) (RL q)
      else some (RL q)) hfin
  refine ⟨RL', ?_, ?_⟩
  · unfold localizeRows
    rw [hs]
    simp only [Option.bind_eq_bind, Option.bind_some]
    rw [hr]
    simp only [Option.bind_some]
    exact h1
  · intro r hrP n0 n1 n2 n3 a0 a1 a2 a3
    exact h2 r hrP _ _ _ _ a0 a1 a2 a3

/-- C03. Localising columns turns the row distribution of any global array into its column
distribution. -/
theorem localize_columns_correct {α : Type} (g : Geom) (hP : 0 < g.P) (G : Arr α)
    (clBuf rlBuf : Nat → List α) (CL RL : Nat → Arr α)
    (hcb : ∀ r, r < g.P → (clBuf r).length = clSize g (alltoallCut g) r)
    (hrb : ∀ r, r < g.P → (rlBuf r).length = rlSize g (alltoallCut g) r)
    (hRL : HoldsRows g (alltoallCut g) G RL) :
    ∃ CL', localizeColumns g (alltoallCut g) clBuf rlBuf CL RL = some CL' ∧
      HoldsColumns g (alltoallCut g) G CL' := by
  set c := alltoallCut g with hc
  have hR := goodRows g hP
  have hC := goodCols g hP
  rw [← hc] at hR hC
  obtain ⟨send, hs, hs'⟩ := allRanks_some (P := g.P) (dflt := rlBuf)
    (f := fun r => if c.rowCount r > 0 then split (colsOrder g c r) (RL r) (rlBuf r) else some (rlBuf r))
    (g := fun r => (colsOrder g c r).map (RL r)) (by
      intro r hr
      have hl := colsOrder_length hC r
      split
      · exact split_full (by rw [hl, hrb r hr])
      · rename_i h0
        have hz : c.rowCount r = 0 := by omega
        have : rlSize g c r = 0 := by simp [rlSize, hz]
        have h1 : colsOrder g c r = [] := List.eq_nil_of_length_eq_zero (by omega)
        have h2 : rlBuf r = [] := List.eq_nil_of_length_eq_zero (by rw [hrb r hr]; exact this)
        simp [h1, h2])
  obtain ⟨recv, hr, hr'⟩ := allRanks_some (P := g.P) (dflt := clBuf)
    (f := fun q => alltoallv g.P send (rlCount g c) (rlDispl g c) (clCount g c) (clDispl g c) clBuf q)
    (g := fun q => (rowsOrder g c q).map (fun t => G (t.1, t.2.1, c.colStart q + t.2.2.1, t.2.2.2))) (by
      intro q hq
      show alltoallv g.P send (rlCount g c) (rlDispl g c) (clCount g c) (clDispl g c) clBuf q = _
      have hseg : ∀ p, p < g.P → (blkCols g c p q).map (RL p) = (blkRows g c q p).map
          (fun t => G (t.1, t.2.1, c.colStart q + t.2.2.1, t.2.2.2)) := by
        intro p hp
        symm
        apply blk_base g c q p G
        · intro n0 n1 n2 n3 h0 h1 h2 h3; rfl
        · intro n0 n1 n2 n3 h0 h1 h2 h3
          exact hRL p hp _ _ _ _ h0 h1 (col_bound hC hq h2) h3
      rw [alltoallv, recv_spec send _ _ _ _ q (fun p => (blkRows g c q p).map
        (fun t => G (t.1, t.2.1, c.colStart q + t.2.2.1, t.2.2.2))) g.P (clBuf q)]
      · rw [rowsOrder_eq, List.map_flatMap]
      · intro p _; exact (counts_match g c q p).symm
      · intro p hp
        rw [hs' p hp, colsOrder_eq, List.map_flatMap]
        rw [readSeg_flatMap _ _ _ _ _ hq, hseg p hp]
        · rw [rlDispl_eq hC]; simp [blkCols_length]
        · simp [blkCols_length]
      · intro p _; rw [clDispl_eq hR]; simp [blkRows_length]
      · rw [hcb q hq, ← rowsOrder_length hR q, rowsOrder_eq, List.length_flatMap]; simp)
  have hfin : ∀ q, q < g.P → ∃ A', (if c.colCount q > 0 then combine (rowsOrder g c q) (recv q) (CL q)
      else some (CL q)) = some A' ∧ (∀ n0 n1 n2 n3, n0 < g.N0 → n1 < g.N1 → n2 < c.colCount q →
        n3 < g.N3 → A' (n0, n1, n2, n3) = G (n0, n1, c.colStart q + n2, n3)) := by
    intro q hq
    by_cases h0 : c.colCount q > 0
    · rw [if_pos h0, hr' q hq]
      obtain ⟨A', h1, h2⟩ := combine_map (rowsOrder g c q)
        (fun t => G (t.1, t.2.1, c.colStart q + t.2.2.1, t.2.2.2)) [] (CL q)
      rw [List.append_nil] at h1
      refine ⟨A', h1, ?_⟩
      intro n0 n1 n2 n3 a0 a1 a2 a3
      rw [h2, if_pos]
      rw [rowsOrder_eq, List.mem_flatMap]
      obtain ⟨p, hp, hp1, hp2⟩ := mem_blocks hR a1
      refine ⟨p, by simpa using hp, ?_⟩
      unfold blkRows
      rw [mem_nest]
      refine ⟨by simpa using a0, ?_, by simpa using a2, by simpa using a3⟩
      rw [rng, List.mem_range'_1]; omega
    · rw [if_neg h0]
      exact ⟨CL q, rfl, fun _ _ _ _ _ _ h => by omega⟩
  obtain ⟨CL', h1, h2⟩ := allRanks_exists (P := g.P) (dflt := CL)
    (f := fun q => if c.colCount q > 0 then combine (rowsOrder g c q) (recv q) (CL q)
      else some (CL q)) hfin
  refine ⟨CL', ?_, ?_⟩
  · unfold localizeColumns
    rw [hs]
    simp only [Option.bind_eq_bind, Option.bind_some]
    rw [hr]
    simp only [Option.bind_some]
    exact h1
  · intro r hrP n0 n1 n2 n3 a0 a1 a2 a3
    exact h2 r hrP _ _ _ _ a0 a1 a2 a3

/-- Any per-process data are the column distribution of some global array. -/
theorem exists_global_columns {α : Type} (g : Geom) (hP : 0 < g.P) (CL : Nat → Arr α) :
    ∃ G, HoldsColumns g (alltoallCut g) G CL := by
  have hC := goodCols g hP
  set c := alltoallCut g
  have own : ∀ n, n < g.N2 → ∃ p, p < g.P ∧ c.colStart p ≤ n ∧ n < c.colEnd p := fun n hn =>
    mem_blocks hC hn
  classical
  choose! o ho1 ho2 ho3 using own
  refine ⟨fun t => CL (o t.2.2.1) (t.1, t.2.1, t.2.2.1 - c.colStart (o t.2.2.1), t.2.2.2), ?_⟩
  intro r hr n0 n1 n2 n3 _ _ h2 _
  have hb := col_bound hC hr h2
  have : o (c.colStart r + n2) = r := by
    have a1 := ho2 _ hb
    have a2 := ho3 _ hb
    generalize o (c.colStart r + n2) = k at *
    have mono : ∀ a b, a ≤ b → c.colStart a ≤ c.colStart b := by
      intro a b hab
      induction b, hab using Nat.le_induction with
      | base => exact le_refl _
      | succ b _ ih => exact le_trans ih (hC.mono b)
    have e1 := hC.next k
    have e2 := hC.next r
    unfold Cut.colCount at h2
    rcases Nat.lt_trichotomy k r with h | h | h
    · have := mono (k+1) r h; omega
    · exact h
    · have := mono (r+1) k h; omega
  simp only [this]
  congr 2
  simp

/-- C03. Round trip: localising rows and then columns gives back every local element, for arbitrary
data on every process. -/
theorem localize_round_trip {α : Type} (g : Geom) (hP : 0 < g.P)
    (clBuf rlBuf clBuf' rlBuf' : Nat → List α) (CL RL CL0 : Nat → Arr α)
    (hcb : ∀ r, r < g.P → (clBuf r).length = clSize g (alltoallCut g) r)
    (hrb : ∀ r, r < g.P → (rlBuf r).length = rlSize g (alltoallCut g) r)
    (hcb' : ∀ r, r < g.P → (clBuf' r).length = clSize g (alltoallCut g) r)
    (hrb' : ∀ r, r < g.P → (rlBuf' r).length = rlSize g (alltoallCut g) r) :
    ∃ RL' CL', localizeRows g (alltoallCut g) clBuf rlBuf CL RL = some RL' ∧
      localizeColumns g (alltoallCut g) clBuf' rlBuf' CL0 RL' = some CL' ∧
      ∀ r, r < g.P → ∀ n0 n1 n2 n3, n0 < g.N0 → n1 < g.N1 → n2 < (alltoallCut g).colCount r →
        n3 < g.N3 → CL' r (n0, n1, n2, n3) = CL r (n0, n1, n2, n3) := by
  obtain ⟨G, hG⟩ := exists_global_columns g hP CL
  obtain ⟨RL', h1, h2⟩ := localize_rows_correct g hP G clBuf rlBuf CL RL hcb hrb hG
  obtain ⟨CL', h3, h4⟩ := localize_columns_correct g hP G clBuf' rlBuf' CL0 RL' hcb' hrb' h2
  refine ⟨RL', CL', h1, h3, ?_⟩
  intro r hr n0 n1 n2 n3 a0 a1 a2 a3
  rw [h4 r hr _ _ _ _ a0 a1 a2 a3, hG r hr _ _ _ _ a0 a1 a2 a3]

/-- The row and column blocks used here are those promised by the layouts for unchunked axes. -/
theorem cut_matches_layout (g : Geom) (hP : 0 < g.P) (r : Nat) :
    rng ((alltoallCut g).rowStart r) ((alltoallCut g).rowEnd r) =
      localElements false ⟨false, g.N1, 1, g.P, false⟩ r ∧
    rng ((alltoallCut g).colStart r) ((alltoallCut g).colEnd r) =
      localElements false ⟨false, g.N2, 1, g.P, false⟩ r := by
  have h1 : ∀ n, ceilDiv n 1 = n := by intro n; simp [ceilDiv]
  simp only [localElements_eq, startChunk, stopChunk, h1, alltoallCut, rng, Bool.false_and,
    Bool.false_eq_true, if_false, Nat.one_mul, Nat.min_comm]
  exact ⟨trivial, trivial⟩

/-- C03 (duplication of constant operands). `RowDistributor` collects the column blocks of all
processes so that every process holds the whole array. -/
theorem row_distributor_gathers {α : Type} (g : Geom) (hP : 0 < g.P) (G : Arr α)
    (rlBuf : Nat → List α) (CL RL : Nat → Arr α)
    (hrb : ∀ r, r < g.P → (rlBuf r).length = rlSize g (rowDistCut g) r)
    (hCL : HoldsColumns g (rowDistCut g) G CL) :
    ∃ RL', rowDistLocalizeRows g rlBuf CL RL = some RL' ∧
      ∀ r, r < g.P → ∀ n0 n1 n2 n3, n0 < g.N0 → n1 < g.N1 → n2 < g.N2 → n3 < g.N3 →
        RL' r (n0, n1, n2, n3) = G (n0, n1, n2, n3) := by
  have hC : Consec (rowDistCut g).colStart (rowDistCut g).colEnd g.N2 g.P := consec_block g.N2 g.P hP
  set c := rowDistCut g with hc
  have hrow : ∀ q, c.rowCount q = g.N1 := fun q => by simp [hc, rowDistCut, Cut.rowCount]
  have hrs : ∀ q, c.rowStart q = 0 := fun q => rfl
  have hre : ∀ q, c.rowEnd q = g.N1 := fun q => rfl
  have hseg : ∀ p q, p < g.P → q < g.P → raveled g.N0 g.N1 (c.colCount p) g.N3 (CL p) =
      (blkCols g c q p).map G := by
    intro p q hp hq
    have := blk_base g c p q G (CL p) G (by
      intro n0 n1 n2 n3 h0 h1 h2 h3
      rw [hrow] at h1
      exact hCL p hp _ _ _ _ h0 (by rw [hrs]; omega) h2 h3) (by
      intro n0 n1 n2 n3 h0 h1 h2 h3; rw [hrs, Nat.zero_add])
    rw [← this]
    unfold raveled blkRows
    rw [hrs, hre, rng, List.range_eq_range', Nat.sub_zero]
    simp [List.range_eq_range']
  obtain ⟨recv, hr, hr'⟩ := allRanks_some (P := g.P) (dflt := rlBuf)
    (f := fun q => allgatherv g.P (fun r => raveled g.N0 g.N1 (c.colCount r) g.N3 (CL r))
      (fun p => clCount g c p p) (rlCount g c) (rlDispl g c) rlBuf q)
    (g := fun q => (colsOrder g c q).map G) (by
      intro q hq
      show allgatherv g.P _ _ _ _ _ q = _
      have hlen : ∀ p, clCount g c p p = rlCount g c q p := by
        intro p; unfold clCount rlCount; rw [hrow, hrow]; ring
      rw [allgatherv, recv_spec _ _ _ _ _ q (fun p => (blkCols g c q p).map G) g.P (rlBuf q)]
      · rw [colsOrder_eq, List.map_flatMap]
      · intro p _; exact hlen p
      · intro p hp
        rw [hseg p q hp hq]
        have := readSeg_mid (α := α) [] ((blkCols g c q p).map G) [] 0 (clCount g c p p) rfl
          (by rw [List.length_map, blkCols_length, hlen])
        simpa using this
      · intro p _; rw [rlDispl_eq hC]; simp [blkCols_length]
      · rw [hrb q hq, ← colsOrder_length hC q, colsOrder_eq, List.length_flatMap]; simp)
  have hfin : ∀ q, q < g.P → ∃ A', combine (colsOrder g c q) (recv q) (RL q) = some A' ∧
      (∀ n0 n1 n2 n3, n0 < g.N0 → n1 < g.N1 → n2 < g.N2 → n3 < g.N3 →
        A' (n0, n1, n2, n3) = G (n0, n1, n2, n3)) := by
    intro q hq
    rw [hr' q hq]
    obtain ⟨A', h1, h2⟩ := combine_map (colsOrder g c q) G [] (RL q)
    rw [List.append_nil] at h1
    refine ⟨A', h1, ?_⟩
    intro n0 n1 n2 n3 a0 a1 a2 a3
    rw [h2, if_pos]
    rw [colsOrder_eq, List.mem_flatMap]
    obtain ⟨p, hp, hp1, hp2⟩ := mem_blocks hC a2
    refine ⟨p, by simpa using hp, ?_⟩
    unfold blkCols
    rw [mem_nest, hrow]
    refine ⟨by simpa using a0, by simpa using a1, ?_, by simpa using a3⟩
    rw [rng, List.mem_range'_1]; omega
  obtain ⟨RL', h1, h2⟩ := allRanks_exists (P := g.P) (dflt := RL)
    (f := fun q => combine (colsOrder g c q) (recv q) (RL q)) hfin
  refine ⟨RL', ?_, ?_⟩
  · unfold rowDistLocalizeRows
    simp only [← hc]
    rw [hr]
    simp only [Option.bind_eq_bind, Option.bind_some]
    exact h1
  · intro r hrP n0 n1 n2 n3 a0 a1 a2 a3
    exact h2 r hrP _ _ _ _ a0 a1 a2 a3

/-- and going back restricts to the own columns. -/
theorem row_distributor_restricts {α : Type} (g : Geom) (hP : 0 < g.P) (G : Arr α) (RL : Nat → Arr α)
    (h : ∀ r, r < g.P → ∀ n0 n1 n2 n3, n0 < g.N0 → n1 < g.N1 → n2 < g.N2 → n3 < g.N3 →
        RL r (n0, n1, n2, n3) = G (n0, n1, n2, n3)) :
    HoldsColumns g (rowDistCut g) G (rowDistLocalizeColumns g RL) := by
  have hC : Consec (rowDistCut g).colStart (rowDistCut g).colEnd g.N2 g.P := consec_block g.N2 g.P hP
  intro r hr n0 n1 n2 n3 a0 a1 a2 a3
  exact h r hr _ _ _ _ a0 a1 (col_bound hC hr a2) a3

/-- C03 (duplication of constant operands). `ColDistributor` collects the row blocks of all
processes so that every process holds the whole array. -/
theorem col_distributor_gathers {α : Type} (g : Geom) (hP : 0 < g.P) (G : Arr α)
    (clBuf : Nat → List α) (CL RL : Nat → Arr α)
    (hcb : ∀ r, r < g.P → (clBuf r).length = clSize g (colDistCut g) r)
    (hRL : HoldsRows g (colDistCut g) G RL) :
    ∃ CL', colDistLocalizeColumns g clBuf CL RL = some CL' ∧
      ∀ r, r < g.P → ∀ n0 n1 n2 n3, n0 < g.N0 → n1 < g.N1 → n2 < g.N2 → n3 < g.N3 →
        CL' r (n0, n1, n2, n3) = G (n0, n1, n2, n3) := by
  have hR : Consec (colDistCut g).rowStart (colDistCut g).rowEnd g.N1 g.P := consec_block g.N1 g.P hP
  set c := colDistCut g with hc
  have hcol : ∀ q, c.colCount q = g.N2 := fun q => by simp [hc, colDistCut, Cut.colCount]
  have hcs : ∀ q, c.colStart q = 0 := fun q => rfl
  have hce : ∀ q, c.colEnd q = g.N2 := fun q => rfl
  have hseg : ∀ p q, p < g.P → q < g.P → raveled g.N0 (c.rowCount p) g.N2 g.N3 (RL p) =
      (blkRows g c q p).map G := by
    intro p q hp hq
    have := blk_base g c q p G G (RL p) (by
      intro n0 n1 n2 n3 h0 h1 h2 h3; rw [hcs, Nat.zero_add]) (by
      intro n0 n1 n2 n3 h0 h1 h2 h3
      rw [hcol] at h2
      exact hRL p hp _ _ _ _ h0 h1 (by rw [hcs]; omega) h3)
    rw [this]
    unfold raveled blkCols
    rw [hcs, hce, rng, List.range_eq_range', Nat.sub_zero]
    simp [List.range_eq_range']
  obtain ⟨recv, hr, hr'⟩ := allRanks_some (P := g.P) (dflt := clBuf)
    (f := fun q => allgatherv g.P (fun r => raveled g.N0 (c.rowCount r) g.N2 g.N3 (RL r))
      (fun p => rlCount g c p p) (clCount g c) (clDispl g c) clBuf q)
    (g := fun q => (rowsOrder g c q).map G) (by
      intro q hq
      show allgatherv g.P _ _ _ _ _ q = _
      have hlen : ∀ p, rlCount g c p p = clCount g c q p := by
        intro p; unfold clCount rlCount; rw [hcol, hcol]; ring
      rw [allgatherv, recv_spec _ _ _ _ _ q (fun p => (blkRows g c q p).map G) g.P (clBuf q)]
      · rw [rowsOrder_eq, List.map_flatMap]
      · intro p _; exact hlen p
      · intro p hp
        rw [hseg p q hp hq]
        have := readSeg_mid (α := α) [] ((blkRows g c q p).map G) [] 0 (rlCount g c p p) rfl
          (by rw [List.length_map, blkRows_length, hlen])
        simpa using this
      · intro p _; rw [clDispl_eq hR]; simp [blkRows_length]
      · rw [hcb q hq, ← rowsOrder_length hR q, rowsOrder_eq, List.length_flatMap]; simp)
  have hfin : ∀ q, q < g.P → ∃ A', combine (rowsOrder g c q) (recv q) (CL q) = some A' ∧
      (∀ n0 n1 n2 n3, n0 < g.N0 → n1 < g.N1 → n2 < g.N2 → n3 < g.N3 →
        A' (n0, n1, n2, n3) = G (n0, n1, n2, n3)) := by
    intro q hq
    rw [hr' q hq]
    obtain ⟨A', h1, h2⟩ := combine_map (rowsOrder g c q) G [] (CL q)
    rw [List.append_nil] at h1
    refine ⟨A', h1, ?_⟩
    intro n0 n1 n2 n3 a0 a1 a2 a3
    rw [h2, if_pos]
    rw [rowsOrder_eq, List.mem_flatMap]
    obtain ⟨p, hp, hp1, hp2⟩ := mem_blocks hR a1
    refine ⟨p, by simpa using hp, ?_⟩
    unfold blkRows
    rw [mem_nest, hcol]
    refine ⟨by simpa using a0, ?_, by simpa using a2, by simpa using a3⟩
    rw [rng, List.mem_range'_1]; omega
  obtain ⟨CL', h1, h2⟩ := allRanks_exists (P := g.P) (dflt := CL)
    (f := fun q => combine (rowsOrder g c q) (recv q) (CL q)) hfin
  refine ⟨CL', ?_, ?_⟩
  · unfold colDistLocalizeColumns
    simp only [← hc]
    rw [hr]
    simp only [Option.bind_eq_bind, Option.bind_some]
    exact h1
  · intro r hrP n0 n1 n2 n3 a0 a1 a2 a3
    exact h2 r hrP _ _ _ _ a0 a1 a2 a3

theorem col_distributor_restricts {α : Type} (g : Geom) (hP : 0 < g.P) (G : Arr α) (CL : Nat → Arr α)
    (h : ∀ r, r < g.P → ∀ n0 n1 n2 n3, n0 < g.N0 → n1 < g.N1 → n2 < g.N2 → n3 < g.N3 →
        CL r (n0, n1, n2, n3) = G (n0, n1, n2, n3)) :
    HoldsRows g (colDistCut g) G (colDistLocalizeRows g CL) := by
  have hR : Consec (colDistCut g).rowStart (colDistCut g).rowEnd g.N1 g.P := consec_block g.N1 g.P hP
  intro r hr n0 n1 n2 n3 a0 a1 a2 a3
  exact h r hr _ _ _ _ a0 (row_bound hR hr a1) a2 a3

-- Hypotheses are met: buffers of the sizes allocated by the constructor, 3 processes, uneven cuts.
example : ∃ (g : Geom) (clBuf rlBuf : Nat → List Nat), 0 < g.P ∧ g.N1 = 4 ∧ g.N2 = 5 ∧
    (∀ r, r < g.P → (clBuf r).length = clSize g (alltoallCut g) r) ∧
    (∀ r, r < g.P → (rlBuf r).length = rlSize g (alltoallCut g) r) :=
  ⟨⟨2, 4, 5, 2, 3⟩, fun r => List.replicate (clSize ⟨2, 4, 5, 2, 3⟩ (alltoallCut ⟨2, 4, 5, 2, 3⟩) r) 0,
   fun r => List.replicate (rlSize ⟨2, 4, 5, 2, 3⟩ (alltoallCut ⟨2, 4, 5, 2, 3⟩) r) 0,
   by decide, rfl, rfl, by simp, by simp⟩

end Dedalus.Transpose
