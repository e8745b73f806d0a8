import Verif.Average.Lemmas
import Verif.Sphere.Props
import Verif.Maps.Lemmas
import Verif.Orders.Props

/-! # C94: averages over the azimuth and over spheres are the means of the function, on any number of processes -/

namespace Dedalus.Average
open Orders Orders.Spec Dist

theorem term_continuous (d : Dtype) (Nphi L : Nat) (low : Int → Nat) (lam : Int → Int → Nat → ℂ) (c : Cell → ℂ) (i j n : Nat) :
    Continuous (Spec.term d Nphi L low lam c i j n) := by
  unfold Spec.term
  obtain ⟨m, l, e⟩ : ∃ m l, sphereGroup d Nphi L i j = some (m, l) := ⟨_, _, rfl⟩
  simp only [e]
  split
  · exact continuous_const.mul (harmonic_continuous d _ _)
  · exact continuous_const

/-- The mean over the azimuth has the coefficients of order zero. -/
theorem value_mean (d : Dtype) (Nphi Ntheta N : Nat) (low : Int → Nat) (lam : Int → Int → Nat → ℂ) (h : Allowed d Nphi Ntheta) (c a : Cell → ℂ)
    (ha : ∀ i j n, i < d.parts → j ≤ lmaxOf d Ntheta → low j ≤ n → n < N → a (i, j, n) = c (i, j, n)) (ψ : ℝ) :
    Spec.value d 1 (lmaxOf d Ntheta) N low lam a ψ =
      (∫ φ in (0 : ℝ)..2 * Real.pi, Spec.value d Nphi (lmaxOf d Ntheta) N low lam c φ) / (2 * Real.pi : ℝ) := by
  have hcont : ∀ i j n, Continuous (Spec.term d Nphi (lmaxOf d Ntheta) low lam c i j n) := term_continuous d Nphi _ low lam c
  unfold Spec.value
  rw [intervalIntegral.integral_finset_sum (fun i _ => Continuous.intervalIntegrable (by fun_prop) _ _), Finset.sum_div]
  have e1 : ∀ i, (∫ φ in (0 : ℝ)..2 * Real.pi, ∑ j ∈ Finset.range (sphereShape d Nphi (lmaxOf d Ntheta)).2, ∑ n ∈ Finset.range N,
      Spec.term d Nphi (lmaxOf d Ntheta) low lam c i j n φ) / (2 * Real.pi : ℝ) =
      ∑ j ∈ Finset.range (sphereShape d Nphi (lmaxOf d Ntheta)).2, ∑ n ∈ Finset.range N,
        (∫ φ in (0 : ℝ)..2 * Real.pi, Spec.term d Nphi (lmaxOf d Ntheta) low lam c i j n φ) / (2 * Real.pi : ℝ) := by
    intro i
    rw [intervalIntegral.integral_finset_sum (fun j _ => Continuous.intervalIntegrable (by fun_prop) _ _), Finset.sum_div]
    refine Finset.sum_congr rfl fun j _ => ?_
    rw [intervalIntegral.integral_finset_sum (fun n _ => Continuous.intervalIntegrable (hcont i j n) _ _), Finset.sum_div]
  simp only [e1]
  rw [shape_one]
  -- terms
  have hterm : ∀ i j n, i < (sphereShape d Nphi (lmaxOf d Ntheta)).1 → j < (sphereShape d Nphi (lmaxOf d Ntheta)).2 → n < N →
      (∫ φ in (0 : ℝ)..2 * Real.pi, Spec.term d Nphi (lmaxOf d Ntheta) low lam c i j n φ) / (2 * Real.pi : ℝ) =
      if i < d.parts ∧ j ≤ lmaxOf d Ntheta then (if low j ≤ n then c (i, j, n) * lam 0 j n * Spec.harmonic d 0 (i % d.parts) ψ else 0) else 0 := by
    intro i j n hi hj hn
    obtain ⟨m, l, e, h1, h2⟩ := orderZero_iff d Nphi Ntheta h i j hi hj
    simp only [Spec.term, e]
    by_cases hm : m = 0
    · rw [if_pos (h1.1 hm), h2 hm]
      by_cases hl : low j ≤ n
      · simp only [if_pos hl, intervalIntegral.integral_const_mul]
        rw [mul_div_assoc, harmonic_mean d m _ (Nat.mod_lt _ (parts_pos d)) ψ, if_pos hm, hm]
      · simp only [if_neg hl]; simp
    · rw [if_neg fun h => hm (h1.2 h)]
      by_cases hl : low l ≤ n
      · simp only [if_pos hl, intervalIntegral.integral_const_mul]
        rw [mul_div_assoc, harmonic_mean d m _ (Nat.mod_lt _ (parts_pos d)) ψ, if_neg hm, mul_zero]
      · simp only [if_neg hl]; simp
  have hterm1 : ∀ i j n, i < d.parts → j < lmaxOf d Ntheta + 1 → n < N → Spec.term d 1 (lmaxOf d Ntheta) low lam a i j n ψ = if low j ≤ n then c (i, j, n) * lam 0 j n * Spec.harmonic d 0 (i % d.parts) ψ else 0 := by
    intro i j n hi hj hn
    obtain ⟨m, l, e, h1, h2⟩ := orderZero_iff d 1 Ntheta (allowed_one d h) i j (by rw [shape_one]; exact hi) (by rw [shape_one]; exact hj)
    have hm := h1.2 ⟨hi, by omega⟩
    simp only [Spec.term, e]
    rw [h2 hm, hm]
    by_cases hl : low j ≤ n
    · rw [if_pos hl, if_pos hl, ha i j n hi (by omega) hl hn]
    · rw [if_neg hl, if_neg hl]
  obtain ⟨C, hC, eC⟩ := shape_rows d Nphi Ntheta h
  have hrows : d.parts ≤ (sphereShape d Nphi (lmaxOf d Ntheta)).1 := by
    rw [eC]; exact Nat.le_mul_of_pos_right _ hC
  rw [← Finset.sum_subset (Finset.range_mono hrows)]
  · refine Finset.sum_congr rfl fun i hi => ?_
    rw [Finset.mem_range] at hi
    rw [← Finset.sum_subset (Finset.range_mono (shape_cols d Nphi (lmaxOf d Ntheta)))]
    · refine Finset.sum_congr rfl fun j hj => ?_
      rw [Finset.mem_range] at hj
      refine Finset.sum_congr rfl fun n hn => ?_
      rw [Finset.mem_range] at hn
      rw [hterm i j n (by omega) (by have := shape_cols d Nphi (lmaxOf d Ntheta); omega) hn, if_pos ⟨hi, by omega⟩]
      exact hterm1 i j n hi hj hn
    · intro j hj hj'
      rw [Finset.mem_range] at hj hj'
      refine Finset.sum_eq_zero fun n hn => ?_
      rw [hterm i j n (by omega) hj (Finset.mem_range.1 hn), if_neg (by omega)]
  · intro i hi hi'
    rw [Finset.mem_range] at hi hi'
    refine Finset.sum_eq_zero fun j hj => Finset.sum_eq_zero fun n hn => ?_
    rw [hterm i j n hi (Finset.mem_range.1 hj) (Finset.mem_range.1 hn), if_neg (by omega)]

/-- C94, azimuthal averages on spheres, shells and balls. If the blocks of columns of the operand and of the result have the same size, every
process computes its part of an array `a` whose function is the mean of the operand over the azimuth. What is missing: other block sizes, for
which the code fails (`azimuthal_average_refuted`). -/
theorem azimuthal_average_partial (d : Dtype) (Nphi Ntheta N P0 P1 : Nat) (low : Int → Nat) (h : Allowed d Nphi Ntheta) (hP0 : 0 < P0)
    (hblocks : P1 = 1 ∨ ceilDiv (sphereShape d Nphi (lmaxOf d Ntheta)).2 P1 = ceilDiv (lmaxOf d Ntheta + 1) P1) (c : Cell → ℂ) :
    ∃ a : Cell → ℂ,
      (∀ p0 p1, p0 < P0 → p1 < P1 → ∃ out, azimuthalAverage d Nphi (lmaxOf d Ntheta) N low P0 P1 p0 p1 c = some out ∧
        ∀ i j n, i ∈ sphereRows d 1 (lmaxOf d Ntheta) P0 p0 → j ∈ sphereCols d 1 (lmaxOf d Ntheta) P1 p1 → n < N →
          out (i, j, n) = a (i, j, n)) ∧
      ∀ lam φ, Spec.value d 1 (lmaxOf d Ntheta) N low lam a φ =
        (∫ φ in (0 : ℝ)..2 * Real.pi, Spec.value d Nphi (lmaxOf d Ntheta) N low lam c φ) / (2 * Real.pi : ℝ) := by
  refine ⟨fun k => if low k.2.1 ≤ k.2.2 then c k else 0, ?_, fun lam φ => value_mean d Nphi Ntheta N low lam h c _
    (fun i j n _ _ hl _ => if_pos hl) φ⟩
  intro p0 p1 hp0 hp1
  unfold azimuthalAverage
  have e1 := cells_filter (sphereRows d Nphi (lmaxOf d Ntheta) P0 p0) (sphereCols d Nphi (lmaxOf d Ntheta) P1 p1) N d.parts (lmaxOf d Ntheta + 1) low
    (orderZero d Nphi (lmaxOf d Ntheta) low) (fun i j n hi hj => orderZero_mask d Nphi Ntheta P0 P1 p0 p1 low h i j n hi hj)
  have e2 := cells_filter (sphereRows d 1 (lmaxOf d Ntheta) P0 p0) (sphereCols d 1 (lmaxOf d Ntheta) P1 p1) N d.parts (lmaxOf d Ntheta + 1) low
    (orderZero d 1 (lmaxOf d Ntheta) low) (fun i j n hi hj => orderZero_mask d 1 Ntheta P0 P1 p0 p1 low (allowed_one d h) i j n hi hj)
  rw [rows_filter d Nphi Ntheta P0 p0 hP0 hp0 h, cols_filter d Nphi _ P1 p1 hblocks] at e1
  rw [rows_filter d 1 Ntheta P0 p0 hP0 hp0 (allowed_one d h), cols_filter d 1 _ P1 p1 (Or.inr (by rw [shape_one]))] at e2
  rw [e1, e2]
  obtain ⟨o, h1, h2⟩ := maskAssign_same (cells (sphereRows d 1 (lmaxOf d Ntheta) P0 p0) (sphereCols d 1 (lmaxOf d Ntheta) P1 p1) N
    (fun _ j n => decide (low j ≤ n))) c (fun _ => 0)
  refine ⟨o, h1, fun i j n hi hj hn => ?_⟩
  rw [h2]
  by_cases hl : low j ≤ n
  · rw [if_pos ((mem_cells _ _ _ _ _).2 ⟨hi, hj, hn, by simpa using hl⟩)]
    exact (if_pos hl).symm
  · rw [if_neg fun hm => hl (by simpa using ((mem_cells _ _ _ _ _).1 hm).2.2.2)]
    exact (if_neg hl).symm

/-- Met with one process along the colatitude, or with the usual 16 by 8 points. -/
example : Allowed .real 16 8 ∧ (sphereShape .real 16 (lmaxOf .real 8)).2 = lmaxOf .real 8 + 1 ∧
    Allowed .real 8 8 ∧ ceilDiv (sphereShape .real 8 (lmaxOf .real 8)).2 3 ≠ ceilDiv (lmaxOf .real 8 + 1) 3 := by
  refine ⟨⟨by decide, Or.inr ⟨by decide, by decide, by decide⟩⟩, by decide, ⟨by decide, Or.inr ⟨by decide, by decide, by decide⟩⟩, by decide⟩

theorem cells_length (I J : List Nat) (N : Nat) (mask : Nat → Nat → Nat → Bool) (h : ∀ i j n, mask i j n = true) :
    (cells I J N mask).length = I.length * (J.length * N) := by
  unfold cells
  have e : ∀ i j, (List.range N).filter (mask i j) = List.range N := fun i j => List.filter_eq_self.2 fun n _ => h i j n
  simp only [e, List.length_flatMap, List.length_map, List.length_range, List.map_const', List.sum_replicate_nat]

theorem ceilDiv_mono {a b : Nat} (h : a ≤ b) (P : Nat) : ceilDiv a P ≤ ceilDiv b P := by
  unfold ceilDiv
  exact Nat.div_le_div_right (by omega)

/-- C94 is false of the code: if the colatitude is distributed and the blocks of the operand and of the result have different sizes,
the average raises an error on process `(0, 0)`. The operand has `Lmax + 1 + shift` columns, the result `Lmax + 1`. -/
theorem azimuthal_average_refuted {V : Type} [Zero V] (d : Dtype) (Nphi Ntheta N P0 P1 : Nat) (h : Allowed d Nphi Ntheta) (hP0 : 0 < P0)
    (hP1 : 1 < P1) (hL : 0 < lmaxOf d Ntheta) (hN : 0 < N)
    (hb : ceilDiv (sphereShape d Nphi (lmaxOf d Ntheta)).2 P1 ≠ ceilDiv (lmaxOf d Ntheta + 1) P1) (c : Cell → V) :
    azimuthalAverage d Nphi (lmaxOf d Ntheta) N (fun _ => 0) P0 P1 0 0 c = none := by
  unfold azimuthalAverage
  have e1 := cells_filter (sphereRows d Nphi (lmaxOf d Ntheta) P0 0) (sphereCols d Nphi (lmaxOf d Ntheta) P1 0) N d.parts (lmaxOf d Ntheta + 1)
    (fun _ => 0) (orderZero d Nphi (lmaxOf d Ntheta) fun _ => 0) (fun i j n hi hj => orderZero_mask d Nphi Ntheta P0 P1 0 0 _ h i j n hi hj)
  have e2 := cells_filter (sphereRows d 1 (lmaxOf d Ntheta) P0 0) (sphereCols d 1 (lmaxOf d Ntheta) P1 0) N d.parts (lmaxOf d Ntheta + 1)
    (fun _ => 0) (orderZero d 1 (lmaxOf d Ntheta) fun _ => 0) (fun i j n hi hj => orderZero_mask d 1 Ntheta P0 P1 0 0 _ (allowed_one d h) i j n hi hj)
  rw [rows_filter d Nphi Ntheta P0 0 hP0 hP0 h] at e1
  rw [rows_filter d 1 Ntheta P0 0 hP0 hP0 (allowed_one d h), cols_filter d 1 _ P1 0 (Or.inr (by rw [shape_one]))] at e2
  have l1 := (congrArg List.length e1).trans (cells_length _ _ _ _ fun i j n => decide_eq_true (Nat.zero_le n))
  have l2 := (congrArg List.length e2).trans (cells_length _ _ _ _ fun i j n => decide_eq_true (Nat.zero_le n))
  have hW := shape_cols d Nphi (lmaxOf d Ntheta)
  have hmono := ceilDiv_mono hW P1
  have k1 := congrArg (fun l => (l.filter fun j => decide (j < lmaxOf d Ntheta + 1)).length) (cols_eq d Nphi (lmaxOf d Ntheta) P1 0)
  have k2 := congrArg List.length (cols_eq d 1 (lmaxOf d Ntheta) P1 0)
  rw [shape_one] at k2
  simp only [filter_range', List.length_range'] at k1 k2
  rw [k1] at l1
  rw [k2] at l2
  clear k1 k2 e1 e2
  generalize (sphereShape d Nphi (lmaxOf d Ntheta)).2 = W at *
  generalize lmaxOf d Ntheta = L at *
  have h0 := (lo_hi_zero (P := P1) (C := W) (by omega) (by omega)).1
  have h0' := (lo_hi_zero (P := P1) (C := L + 1) (by omega) (by omega)).1
  have hr : (sphereRows d 1 L P0 0).length = d.parts := by
    obtain ⟨h3, h4⟩ := lo_hi_zero (C := 1) hP0 (by omega)
    have h5 := hi_le P0 1 0
    rw [rows_one, List.length_range', h3, show hi P0 1 0 = 1 by omega]; omega
  have hhi : ∀ C, hi P1 C 0 = min C (ceilDiv C P1) := by
    intro C; unfold hi; rw [if_neg (by omega)]; simp
  simp only [h0, h0', hr, hhi, Nat.zero_add, Nat.sub_zero] at l1 l2
  have hlt : ceilDiv (L + 1) P1 < L + 1 := by
    unfold ceilDiv
    rw [Nat.div_lt_iff_lt_mul (by omega)]
    have : L * 2 ≤ L * P1 := Nat.mul_le_mul_left _ hP1
    rw [Nat.add_mul]
    omega
  have hpos := ceilDiv_pos (n := L + 1) (P := P1) (by omega) (by omega)
  have hb' := parts_pos d
  have hgt : (cells (sphereRows d 1 L P0 0) (sphereCols d 1 L P1 0) N (orderZero d 1 L fun _ => 0)).length <
      (cells (sphereRows d Nphi L P0 0) (sphereCols d Nphi L P1 0) N (orderZero d Nphi L fun _ => 0)).length := by
    rw [l1, l2]
    refine Nat.mul_lt_mul_of_pos_left (Nat.mul_lt_mul_of_pos_right ?_ hN) hb'
    omega
  have hone : 0 < (cells (sphereRows d 1 L P0 0) (sphereCols d 1 L P1 0) N (orderZero d 1 L fun _ => 0)).length := by
    rw [l2]
    exact Nat.mul_pos hb' (Nat.mul_pos (by omega) hN)
  unfold maskAssign
  rw [if_neg (by rw [List.length_map]; omega)]
  generalize cells (sphereRows d 1 L P0 0) (sphereCols d 1 L P1 0) N (orderZero d 1 L fun _ => 0) = ks at *
  generalize cells (sphereRows d Nphi L P0 0) (sphereCols d Nphi L P1 0) N (orderZero d Nphi L fun _ => 0) = js at *
  match js with
  | [] => rfl
  | [a] => simp at hgt; rw [hgt] at hone; simp at hone
  | _ :: _ :: _ => rfl

/-- 16 by 16 points, two processes along the colatitude. -/
example (c : Cell → ℂ) : azimuthalAverage .real 16 14 4 (fun _ => 0) 2 2 0 0 c = none :=
  azimuthal_average_refuted .real 16 16 4 2 2 ⟨by decide, Or.inr ⟨by decide, by decide, by decide⟩⟩ (by decide) (by decide) (by decide) (by decide)
    (by decide) c

/-! ## Disk and annulus -/

theorem hi_lo_one {P p : Nat} (hP : 0 < P) (hp : p < P) : if p = 0 then lo P 1 p = 0 ∧ hi P 1 p = 1 else hi P 1 p - lo P 1 p = 0 := by
  split
  · rename_i h
    subst h
    obtain ⟨h1, h2⟩ := lo_hi_zero (C := 1) hP (by omega)
    have := hi_le P 1 0
    exact ⟨h1, by omega⟩
  · rename_i h
    have := lo_pos (C := 1) hP (by omega) (by omega) h
    have := hi_le P 1 p
    omega

theorem nodup_one {α : Type} (l : List α) (x : α) (h : ∀ y, y ∈ l ↔ y = x) (hn : l.Nodup) : l = [x] := by
  match l, h, hn with
  | [], h, _ => exact absurd ((h x).2 rfl) (by simp)
  | [y], h, _ => rw [(h y).1 (by simp)]
  | y :: z :: l, h, hn =>
    have h1 := (h y).1 (by simp)
    have h2 := (h z).1 (by simp)
    rw [h1, h2] at hn
    simp at hn

theorem polar_one (disk : Bool) (d : Dtype) (Nr Ng P p : Nat) (hN : 0 < Nr) (hg : 0 < Ng) (hp : p < P) :
    if p = 0 then polarCoeff d 1 P p = List.range d.parts ∧ polarMaps disk d 1 Nr Ng P p = some [⟨0, (0, d.parts), (0, d.parts), (0, Nr), false⟩]
    else polarCoeff d 1 P p = [] ∧ polarMaps disk d 1 Nr Ng P p = some [] := by
  cases d with
  | real =>
    have h := polar_axisymmetric disk Nr Ng P p hN hg (by omega)
    by_cases hp0 : p = 0
    · rw [if_pos (Or.inl hp0)] at h
      rw [if_pos hp0]
      exact ⟨h.2.1, h.2.2⟩
    · rw [if_neg (by omega)] at h
      rw [if_neg hp0]
      exact ⟨h.2.1, h.2.2⟩
  | complex =>
    have h1 := hi_lo_one (by omega) hp
    have e := rows_eq P 1 1 p (by omega)
    obtain ⟨maps, h2, h3, h4⟩ := maps_low (rows_small 1 (Or.inl rfl)) (fun m => (nmin disk m).toNat) (lo P 1 p) (hi P 1 p) Nr Ng (hi_le P 1 p) hg (by
      intro k hk
      have : k = 0 := by omega
      subst this
      cases disk <;> simpa [nmin] using hN)
    rw [← e] at h2
    have hm : polarMaps disk .complex 1 Nr Ng P p = some maps := by
      unfold polarMaps
      rw [polarGroup_eq]
      exact h2
    have hc : polarCoeff .complex 1 P p = _ := e
    rw [hm, hc]
    by_cases hp0 : p = 0
    · rw [if_pos hp0] at h1 ⊢
      rw [h1.1, h1.2]
      refine ⟨rfl, congrArg some (nodup_one _ _ (fun y => ?_) (List.Nodup.of_map _ h4))⟩
      rw [h3 y, h1.1, h1.2]
      constructor
      · rintro ⟨k, -, hk, rfl⟩
        have : k = 0 := by omega
        subst this
        cases disk <;> rfl
      · rintro rfl
        refine ⟨0, le_rfl, by omega, ?_⟩
        cases disk <;> rfl
    · rw [if_neg hp0] at h1 ⊢
      rw [h1]
      refine ⟨rfl, congrArg some (List.eq_nil_iff_forall_not_mem.2 fun y hy => ?_)⟩
      obtain ⟨k, h5, h6, -⟩ := (h3 y).1 hy
      omega

/-- The rows of order zero are the first ones. -/
theorem polar_zero (d : Dtype) (Nphi : Nat) (h : Nphi = 1 ∨ (0 < Nphi ∧ 2 * d.parts ∣ Nphi)) :
    d.parts ∣ polarRows d Nphi ∧ d.parts ≤ polarRows d Nphi ∧ ∀ i, i < polarRows d Nphi → (wave d Nphi i = 0 ↔ i < d.parts) := by
  have key : ∀ {b C : Nat} {v w : Nat → Int}, Rows b C v w → v 0 = 0 → 0 < C → ∀ i, i < b * C → (w i = 0 ↔ i < b) := by
    intro b C v w hr h0 hC i hi
    rw [hr.wave i hi, ← h0]
    have hk : i / b < C := by
      rw [Nat.div_lt_iff_lt_mul hr.hb, Nat.mul_comm]; exact hi
    constructor
    · intro e
      have := hr.inj _ _ hk hC e
      rwa [Nat.div_eq_zero_iff_lt hr.hb] at this
    · intro e
      rw [Nat.div_eq_of_lt e]
  cases d with
  | real =>
    simp only [Dtype.parts] at *
    rcases h with rfl | ⟨h0, ⟨Q, rfl⟩⟩
    · refine ⟨by decide, by decide, fun i hi => ?_⟩
      have : i = 0 ∨ i = 1 := by simp [polarRows] at hi; omega
      rcases this with rfl | rfl <;> decide
    · have hr : polarRows .real (2 * 2 * Q) = 2 * (2 * Q) := by
        unfold polarRows; simp only; rw [if_pos (by omega)]; omega
      rw [hr]
      have := key (rows_real Q (by omega)) (by simp [vReal, oReal]) (by omega)
      rw [show 2 * 2 * Q = 4 * Q by ring]
      exact ⟨Nat.dvd_mul_right _ _, by omega, this⟩
  | complex =>
    simp only [Dtype.parts] at *
    have e : polarRows .complex Nphi = 1 * Nphi := by simp [polarRows]
    refine ⟨Nat.one_dvd _, by rw [e]; omega, ?_⟩
    rw [e]
    rcases h with rfl | ⟨h0, ⟨M, rfl⟩⟩
    · exact key (rows_small 1 (Or.inl rfl)) rfl (by omega)
    · by_cases hM : M = 1
      · subst hM
        exact key (rows_small 2 (Or.inr rfl)) rfl (by omega)
      · rw [show 2 * 1 * M = 2 * M by ring]
        exact key (rows_complex M (by omega)) (by simp [vComplex, oComplex]) (by omega)

/-- The mean over the azimuth has the coefficients of order zero. -/
theorem polar_mean (disk : Bool) (d : Dtype) (Nphi Nr : Nat) (h : Nphi = 1 ∨ (0 < Nphi ∧ 2 * d.parts ∣ Nphi)) (c : Nat → Nat → ℂ) (lam : Int → Nat → ℂ) (ψ : ℝ) :
    Spec.polarValue disk d 1 Nr lam c ψ = (∫ φ in (0 : ℝ)..2 * Real.pi, Spec.polarValue disk d Nphi Nr lam c φ) / (2 * Real.pi : ℝ) := by
  obtain ⟨-, hle, hzero⟩ := polar_zero d Nphi h
  have hb := parts_pos d
  have hcont : ∀ i n, Continuous fun φ => (if nmin disk (wave d Nphi i) ≤ (n : Nat) then c i n * lam (wave d Nphi i) n *
      Spec.harmonic d (wave d Nphi i) (i % d.parts) φ else 0 : ℂ) := by
    intro i n
    split
    · exact continuous_const.mul (harmonic_continuous d _ _)
    · exact continuous_const
  unfold Spec.polarValue
  rw [intervalIntegral.integral_finset_sum (fun i _ => Continuous.intervalIntegrable (continuous_finset_sum _ fun n _ => hcont i n) _ _),
    Finset.sum_div]
  have hnm : nmin disk 0 ≤ 0 := by cases disk <;> decide
  have hterm : ∀ i n : Nat, i < polarRows d Nphi → (∫ φ in (0 : ℝ)..2 * Real.pi, (if nmin disk (wave d Nphi i) ≤ (n : Nat) then
      c i n * lam (wave d Nphi i) n * Spec.harmonic d (wave d Nphi i) (i % d.parts) φ else 0 : ℂ)) / (2 * Real.pi : ℝ) =
      if i < d.parts then c i n * lam 0 n * Spec.harmonic d 0 (i % d.parts) ψ else 0 := by
    intro i n hi
    by_cases hm : wave d Nphi i = 0
    · rw [if_pos ((hzero i hi).1 hm), hm]
      simp only [show nmin disk 0 ≤ (n : Int) by omega, if_true, intervalIntegral.integral_const_mul]
      rw [mul_div_assoc, harmonic_mean d 0 _ (Nat.mod_lt _ hb) ψ, if_pos rfl]
    · rw [if_neg fun h => hm ((hzero i hi).2 h)]
      by_cases hl : nmin disk (wave d Nphi i) ≤ (n : Nat)
      · simp only [if_pos hl, intervalIntegral.integral_const_mul]
        rw [mul_div_assoc, harmonic_mean d _ _ (Nat.mod_lt _ hb) ψ, if_neg hm, mul_zero]
      · simp only [if_neg hl]; simp
  have e1 : polarRows d 1 = d.parts := by cases d <;> rfl
  rw [e1, ← Finset.sum_subset (Finset.range_mono hle)]
  · refine Finset.sum_congr rfl fun i hi => ?_
    rw [Finset.mem_range] at hi
    rw [intervalIntegral.integral_finset_sum (fun n _ => Continuous.intervalIntegrable (hcont i n) _ _), Finset.sum_div]
    refine Finset.sum_congr rfl fun n _ => ?_
    rw [hterm i n (by omega), if_pos hi, ((polar_zero d 1 (Or.inl rfl)).2.2 i (by omega)).2 hi, if_pos (by omega)]
  · intro i hi hi'
    rw [Finset.mem_range] at hi hi'
    rw [intervalIntegral.integral_finset_sum (fun n _ => Continuous.intervalIntegrable (hcont i n) _ _), Finset.sum_div]
    refine Finset.sum_eq_zero fun n _ => ?_
    rw [hterm i n hi, if_neg hi']

/-- C94, azimuthal averages on disks and annuli: every process computes its part of an array whose function is the mean over the azimuth. -/
theorem polar_azimuthal_average (disk : Bool) (d : Dtype) (Nphi Nr Ng P : Nat) (h : Nphi = 1 ∨ (0 < Nphi ∧ 2 * d.parts ∣ Nphi)) (hN : 0 < Nr)
    (hg : 0 < Ng) (c : Nat → Nat → ℂ) :
    ∃ a : Nat → Nat → ℂ,
      (∀ p x, p < P → (∀ i r, (polarCoeff d Nphi P p)[i]? = some r → x i = c r) → ∃ out, polarAverage disk d Nr Ng P p x = some out ∧
        ∀ i r n, (polarCoeff d 1 P p)[i]? = some r → n < Nr → out i n = a r n) ∧
      ∀ lam φ, Spec.polarValue disk d 1 Nr lam a φ =
        (∫ φ in (0 : ℝ)..2 * Real.pi, Spec.polarValue disk d Nphi Nr lam c φ) / (2 * Real.pi : ℝ) := by
  obtain ⟨⟨C, hC⟩, hle, hzero⟩ := polar_zero d Nphi h
  have hb := parts_pos d
  have hC0 : 0 < C := by
    rcases Nat.eq_zero_or_pos C with rfl | h'
    · omega
    · exact h'
  refine ⟨c, ?_, ?_⟩
  · intro p x hp hx
    have h1 := polar_one disk d Nr Ng P p hN hg hp
    unfold polarAverage
    by_cases hp0 : p = 0
    · rw [if_pos hp0] at h1
      rw [h1.1, h1.2]
      refine ⟨_, rfl, fun i r n hr hn => ?_⟩
      rw [List.getElem?_eq_some_iff] at hr
      obtain ⟨hib, hr⟩ := hr
      rw [List.getElem_range] at hr
      rw [List.length_range] at hib ⊢
      subst hr
      have hrow : (polarCoeff d Nphi P p)[i]? = some i := by
        unfold polarCoeff
        rw [hC, rows_eq P d.parts C p hb, range'_get, hp0]
        obtain ⟨h2, h3⟩ := lo_hi_zero (P := P) (C := C) (by omega) hC0
        rw [h2]
        have : d.parts * 1 ≤ d.parts * (hi P C 0 - 0) := Nat.mul_le_mul_left _ (by omega)
        exact ⟨by omega, by omega⟩
      simp only [polarOperate, List.foldl_cons, List.foldl_nil, averageMatrix, if_true]
      rw [if_pos ⟨⟨by omega, by omega, by omega⟩, by omega, hn⟩, hx i i hrow]
      simp
    · rw [if_neg hp0] at h1
      rw [h1.1, h1.2]
      exact ⟨_, rfl, fun i r n hr => by simp at hr⟩
  · exact fun lam ψ => polar_mean disk d Nphi Nr h c lam ψ

/-- A disk of 8 by 4 coefficients on two processes: the first keeps the rows of order zero, the second has none. -/
example : ((polarAverage true .real 4 4 2 0 fun i n => (10 * i + n : Nat)).map fun f => (List.range 2).map fun i => (List.range 4).map (f i)) =
    some [[0, 1, 2, 3], [10, 11, 12, 13]] ∧ (polarCoeff .real 1 2 1).length = 0 := by decide +kernel

/-! ## Averages over spheres -/

theorem name_eq (d : Dtype) (Nphi L i j : Nat) : sphereGroup d Nphi L i j = some (sphereName d Nphi L i j) := rfl

/-- At the first coefficients of order zero, the degree maps only have entries of degree zero. -/
theorem ellAverage_eq {V : Type} [AddCommMonoid V] (G : Nat → Nat → Int × Int) (b R C R' C' : Nat) (x : Nat → Nat → V) (hR : R' ≤ R) (hC : C' ≤ C)
    (h0 : ∀ i j, i < R' → j < C' → (G i j).2 = 0) :
    ∃ out, ellAverage G b 0 0 R C R' C' x = some out ∧ ∀ i j, i < R' → j < C' → out i j = x i j := by
  have hvis : ∀ e ∈ Maps.ellMaps G b 0 0 R C, ∀ i j, i < R' → j < C' → e.covers i j = true → e.ell = 0 := by
    intro e he i j hi hj hc
    have hm : e.ell ∈ Maps.visits (Maps.ellMaps G b 0 0 R C) i j := by
      unfold Maps.visits
      exact List.mem_map.2 ⟨e, List.mem_filter.2 ⟨he, hc⟩, rfl⟩
    obtain ⟨p, q, -, -, h1, -, h2, -⟩ := (Maps.mem_visits G b 0 0 R C i j (by omega) e.ell).1 hm
    rw [← h2]
    simp only [Maps.deg, Nat.zero_add]
    exact h0 p j (by omega) hj
  have hone : ∀ i j, i < R' → j < C' → ((Maps.ellMaps G b 0 0 R C).filter (·.covers i j)).length = 1 := by
    intro i j hi hj
    have hv : Maps.visits (Maps.ellMaps G b 0 0 R C) i j = [0] := by
      refine nodup_one _ _ (fun e => ?_) (Maps.visits_nodup G b 0 0 R C i j (by omega))
      rw [Maps.mem_visits G b 0 0 R C i j (by omega) e]
      constructor
      · rintro ⟨p, q, -, -, h1, -, h2, -⟩
        rw [← h2]
        simp only [Maps.deg, Nat.zero_add]
        exact h0 p j (by omega) hj
      · rintro rfl
        refine ⟨i, i, by omega, by omega, le_rfl, le_rfl, ?_, ?_⟩ <;>
        · simp only [Maps.deg, Nat.zero_add]
          exact h0 i j hi hj
    have := congrArg List.length hv
    simpa [Maps.visits] using this
  unfold ellAverage
  generalize Maps.ellMaps G b 0 0 R C = l at hvis hone
  suffices H : ∀ (l : List Maps.Entry) (o : Nat → Nat → V), (∀ e ∈ l, ∀ i j, i < R' → j < C' → e.covers i j = true → e.ell = 0) →
      ∃ out, l.foldl (fun out e => out.bind fun out =>
        if e.rows.1 < min e.rows.2 R' ∧ e.cols.1 < min e.cols.2 C' then
          if e.ell = 0 then some fun i j => if e.covers i j ∧ i < R' ∧ j < C' then out i j + x i j else out i j
          else none
        else some out) (some o) = some out ∧
        ∀ i j, i < R' → j < C' → out i j = o i j + (l.filter (·.covers i j)).length • x i j by
    obtain ⟨out, h1, h2⟩ := H l (fun _ _ => 0) hvis
    refine ⟨out, h1, fun i j hi hj => ?_⟩
    rw [h2 i j hi hj, hone i j hi hj, zero_add, one_nsmul]
  clear hvis hone l
  intro l
  induction l with
  | nil => intro o _; exact ⟨o, rfl, fun i j _ _ => by simp⟩
  | cons e l ih =>
    intro o hv
    have hv' : ∀ e ∈ l, ∀ i j, i < R' → j < C' → e.covers i j = true → e.ell = 0 := fun e he => hv e (List.mem_cons_of_mem _ he)
    rw [List.foldl_cons]
    by_cases hvis : e.rows.1 < min e.rows.2 R' ∧ e.cols.1 < min e.cols.2 C'
    · have he : e.ell = 0 := hv e (by simp) e.rows.1 e.cols.1 (by omega) (by omega) (by
        unfold Maps.Entry.covers; simp; omega)
      simp only [Option.bind_some, if_pos hvis, if_pos he]
      obtain ⟨out, h1, h2⟩ := ih (fun i j => if e.covers i j ∧ i < R' ∧ j < C' then o i j + x i j else o i j) hv'
      refine ⟨out, h1, fun i j hi hj => ?_⟩
      rw [h2 i j hi hj, List.filter_cons]
      by_cases hc : e.covers i j = true
      · rw [if_pos ⟨hc, hi, hj⟩, if_pos hc, List.length_cons, succ_nsmul]
        rw [add_assoc, add_comm (x i j)]
      · rw [if_neg fun h => hc h.1, if_neg hc]
    · simp only [Option.bind_some, if_neg hvis]
      obtain ⟨out, h1, h2⟩ := ih o hv'
      refine ⟨out, h1, fun i j hi hj => ?_⟩
      rw [h2 i j hi hj, List.filter_cons, if_neg]
      unfold Maps.Entry.covers
      simp
      omega

theorem ellAverage_empty {V : Type} [AddCommMonoid V] (G : Nat → Nat → Int × Int) (b r0 c0 R C R' C' : Nat) (x : Nat → Nat → V) (h : R' = 0 ∨ C' = 0) :
    ellAverage G b r0 c0 R C R' C' x = some fun _ _ => 0 := by
  unfold ellAverage
  generalize Maps.ellMaps G b r0 c0 R C = l
  induction l with
  | nil => rfl
  | cons e l ih =>
    rw [List.foldl_cons, Option.bind_some, if_neg (by omega)]
    exact ih

/-- The local shape of the result: the rows of order zero and one column on process `(0, 0)`, nothing elsewhere. -/
theorem shape_zero (d : Dtype) (P0 P1 p0 p1 : Nat) (hp0 : p0 < P0) (hp1 : p1 < P1) :
    sphereRows d 1 0 P0 p0 = (if p0 = 0 then List.range d.parts else []) ∧ sphereCols d 1 0 P1 p1 = if p1 = 0 then [0] else [] := by
  have h1 := hi_lo_one (by omega) hp0
  have h2 := hi_lo_one (by omega) hp1
  constructor
  · rw [rows_one]
    split
    · rename_i h
      rw [if_pos h] at h1
      rw [h1.1, h1.2, List.range_eq_range']; simp
    · rename_i h
      rw [if_neg h] at h1
      rw [h1]; simp
  · rw [cols_eq, shape_one]
    simp only [Nat.zero_add]
    split
    · rename_i h
      rw [if_pos h] at h2
      rw [h2.1, h2.2]; rfl
    · rename_i h
      rw [if_neg h] at h2
      rw [h2]; simp

theorem first_row (d : Dtype) (Nphi Ntheta P : Nat) (hP : 0 < P) (h : Allowed d Nphi Ntheta) :
    (sphereRows d Nphi (lmaxOf d Ntheta) P 0).headD 0 = 0 ∧ d.parts ≤ (sphereRows d Nphi (lmaxOf d Ntheta) P 0).length ∧
      ∀ i, i < d.parts → (sphereRows d Nphi (lmaxOf d Ntheta) P 0)[i]? = some i := by
  obtain ⟨C, hC, -, e⟩ := rows_shape d Nphi Ntheta P 0 h
  obtain ⟨h1, h2⟩ := lo_hi_zero hP hC
  have hb := parts_pos d
  have hle : d.parts * 1 ≤ d.parts * (hi P C 0 - 0) := Nat.mul_le_mul_left _ (by omega)
  rw [e, h1, Nat.mul_zero]
  refine ⟨?_, by rw [List.length_range']; omega, fun i hi => (range'_get _ _ _ _).2 ⟨by omega, by omega⟩⟩
  obtain ⟨n, hn⟩ : ∃ n, d.parts * (hi P C 0 - 0) = n + 1 := ⟨d.parts * (hi P C 0 - 0) - 1, by omega⟩
  rw [hn, List.range'_succ]
  rfl

theorem first_col (d : Dtype) (Nphi L P : Nat) (hP : 0 < P) :
    (sphereCols d Nphi L P 0).headD 0 = 0 ∧ 1 ≤ (sphereCols d Nphi L P 0).length ∧ (sphereCols d Nphi L P 0)[0]? = some 0 := by
  have hW := shape_cols d Nphi L
  obtain ⟨h1, h2⟩ := lo_hi_zero (C := (sphereShape d Nphi L).2) hP (by omega)
  rw [cols_eq, h1, Nat.sub_zero]
  obtain ⟨n, hn⟩ : ∃ n, hi P (sphereShape d Nphi L).2 0 = n + 1 := ⟨hi P (sphereShape d Nphi L).2 0 - 1, by omega⟩
  rw [hn, List.range'_succ]
  exact ⟨rfl, by simp, rfl⟩

theorem degree_zero (d : Dtype) (Nphi Ntheta : Nat) (h : Allowed d Nphi Ntheta) (i : Nat) (hi : i < d.parts) :
    sphereName d Nphi (lmaxOf d Ntheta) i 0 = (0, 0) := by
  obtain ⟨C, hC, eC⟩ := shape_rows d Nphi Ntheta h
  have : d.parts * 1 ≤ d.parts * C := Nat.mul_le_mul_left _ hC
  obtain ⟨m, l, e, h1, h2⟩ := orderZero_iff d Nphi Ntheta h i 0 (by rw [eC]; omega) (by have := shape_cols d Nphi (lmaxOf d Ntheta); omega)
  rw [name_eq, Option.some.injEq] at e
  have hm := h1.2 ⟨hi, by omega⟩
  rw [e, hm, h2 hm]; rfl

/-- Means over the sphere of a scalar on a shell or ball at one radius, or on a sphere. -/
noncomputable def sphereValue (d : Dtype) (Nphi L : Nat) (c : Nat → Nat → ℂ) (θ φ : ℝ) : ℂ :=
  Spec.value d Nphi L 1 (fun _ => 0) (fun m l _ => (Sphere.Spec.Y l.toNat m 0 (Real.cos θ) : ℝ)) (fun k => c k.1 k.2.1) φ

theorem sphereValue_one (d : Dtype) (L : Nat) (c : Nat → Nat → ℂ) (θ φ : ℝ) :
    sphereValue d 1 L c θ φ = ∑ i ∈ Finset.range d.parts, Sphere.Spec.field L 0 0 (c i) θ * Spec.harmonic d 0 (i % d.parts) φ := by
  obtain ⟨N, hL, hA⟩ : ∃ N, lmaxOf d N = L ∧ Allowed d 1 N := by
    cases d
    · exact ⟨L + 2, by simp [lmaxOf], by simp, Or.inl rfl⟩
    · exact ⟨L + 1, by simp [lmaxOf], by simp, Or.inl rfl⟩
  unfold sphereValue Spec.value
  rw [shape_one]
  refine Finset.sum_congr rfl fun i hi => ?_
  rw [Finset.mem_range] at hi
  unfold Sphere.Spec.field
  simp only [Int.natAbs_zero, max_self, ← Finset.range_eq_Ico, Finset.sum_mul]
  refine Finset.sum_congr rfl fun j hj => ?_
  rw [Finset.mem_range] at hj
  rw [Finset.sum_range_one]
  obtain ⟨m, l, e, h1, h2⟩ := orderZero_iff d 1 _ hA i j (by rw [shape_one]; exact hi) (by rw [shape_one, hL]; exact hj)
  rw [hL] at e h1
  have hm := h1.2 ⟨hi, by omega⟩
  rw [Spec.term, e]
  simp only [Nat.zero_le, if_true]
  rw [h2 hm, hm, Int.toNat_natCast]
  ring

/-- The mean over the sphere has the coefficient of order and degree zero. -/
theorem sphere_mean (d : Dtype) (Nphi Ntheta : Nat) (h : Allowed d Nphi Ntheta) (c a : Nat → Nat → ℂ) (ha : ∀ i, i < d.parts → a i 0 = c i 0) (θ ψ : ℝ) :
    sphereValue d 1 0 a θ ψ =
      (∫ x in (0 : ℝ)..Real.pi, (∫ φ in (0 : ℝ)..2 * Real.pi, sphereValue d Nphi (lmaxOf d Ntheta) c x φ) * Real.sin x) / (4 * Real.pi : ℝ) := by
  have hpi : ((2 * Real.pi : ℝ) : ℂ) ≠ 0 := by
    have := Real.pi_pos
    exact_mod_cast (by positivity : (2 * Real.pi : ℝ) ≠ 0)
  have h1 : ∀ x, (∫ φ in (0 : ℝ)..2 * Real.pi, sphereValue d Nphi (lmaxOf d Ntheta) c x φ) =
      (2 * Real.pi : ℝ) * ∑ i ∈ Finset.range d.parts, Sphere.Spec.field (lmaxOf d Ntheta) 0 0 (c i) x * Spec.harmonic d 0 (i % d.parts) ψ := by
    intro x
    have := value_mean d Nphi Ntheta 1 (fun _ => 0) (fun m l _ => (Sphere.Spec.Y l.toNat m 0 (Real.cos x) : ℝ)) h (fun k => c k.1 k.2.1)
      (fun k => c k.1 k.2.1) (fun _ _ _ _ _ _ _ => rfl) ψ
    rw [eq_div_iff hpi] at this
    have e := sphereValue_one d (lmaxOf d Ntheta) c x ψ
    unfold sphereValue at e ⊢
    rw [← this, e, mul_comm]
  simp only [h1]
  have h2 : ∀ i, ∫ x in (0 : ℝ)..Real.pi, Sphere.Spec.field (lmaxOf d Ntheta) 0 0 (c i) x * Real.sin x =
      2 * Sphere.Spec.field 0 0 0 (c i) θ := by
    intro i
    have := Sphere.sphere_average (lmaxOf d Ntheta) (c i) θ
    rw [eq_div_iff two_ne_zero] at this
    rw [← this, mul_comm]
    congr 1
    unfold Sphere.Spec.field
    refine Finset.sum_congr rfl fun l hl => ?_
    have : l = 0 := by have := (Finset.mem_Ico.1 hl).2; omega
    subst this
    simp [Sphere.averageSymbol]
  have hcont : ∀ i, Continuous fun x => Sphere.Spec.field (lmaxOf d Ntheta) 0 0 (c i) x := by
    intro i
    unfold Sphere.Spec.field
    refine continuous_finset_sum _ fun l _ => Continuous.mul ?_ continuous_const
    exact Complex.continuous_ofReal.comp ((Sphere.Y_continuous l 0 0).comp Real.continuous_cos)
  have h3 : (∫ x in (0 : ℝ)..Real.pi, ((2 * Real.pi : ℝ) * ∑ i ∈ Finset.range d.parts, Sphere.Spec.field (lmaxOf d Ntheta) 0 0 (c i) x *
      Spec.harmonic d 0 (i % d.parts) ψ) * (Real.sin x : ℂ)) = (2 * Real.pi : ℝ) * ∑ i ∈ Finset.range d.parts,
      2 * Sphere.Spec.field 0 0 0 (c i) θ * Spec.harmonic d 0 (i % d.parts) ψ := by
    simp only [mul_assoc ((2 * Real.pi : ℝ) : ℂ), intervalIntegral.integral_const_mul, Finset.sum_mul]
    congr 1
    have hs : Continuous fun x : ℝ => ((Real.sin x : ℝ) : ℂ) := Complex.continuous_ofReal.comp Real.continuous_sin
    have hint : ∀ i, IntervalIntegrable (fun x => Sphere.Spec.field (lmaxOf d Ntheta) 0 0 (c i) x * Spec.harmonic d 0 (i % d.parts) ψ *
        (Real.sin x : ℂ)) MeasureTheory.volume 0 Real.pi :=
      fun i => Continuous.intervalIntegrable (((hcont i).mul continuous_const).mul hs) _ _
    rw [intervalIntegral.integral_finset_sum fun i _ => hint i]
    refine Finset.sum_congr rfl fun i _ => ?_
    rw [← h2 i]
    simp only [mul_right_comm _ (Spec.harmonic d 0 (i % d.parts) ψ), intervalIntegral.integral_mul_const]
  rw [h3, sphereValue_one, eq_div_iff (by
    have := Real.pi_pos
    exact_mod_cast (by positivity : (4 * Real.pi : ℝ) ≠ 0)), Finset.mul_sum, Finset.sum_mul]
  refine Finset.sum_congr rfl fun i hi => ?_
  have : Sphere.Spec.field 0 0 0 (a i) θ = Sphere.Spec.field 0 0 0 (c i) θ := by
    unfold Sphere.Spec.field
    refine Finset.sum_congr rfl fun l hl => ?_
    have : l = 0 := by have := (Finset.mem_Ico.1 hl).2; omega
    subst this
    rw [ha i (Finset.mem_range.1 hi)]
  rw [this]
  push_cast
  ring

/-- C94, averages over spheres of scalars on shells and balls (each radial mode) and on spheres: every process computes its part of an array
whose function is the mean over the sphere. -/
theorem spherical_average (d : Dtype) (Nphi Ntheta P0 P1 : Nat) (h : Allowed d Nphi Ntheta) (c : Nat → Nat → ℂ) :
    ∃ a : Nat → Nat → ℂ,
      (∀ p0 p1 x, p0 < P0 → p1 < P1 → (∀ i r j s, (sphereRows d Nphi (lmaxOf d Ntheta) P0 p0)[i]? = some r →
          (sphereCols d Nphi (lmaxOf d Ntheta) P1 p1)[j]? = some s → x i j = c r s) →
        ∃ out, sphericalAverage d Nphi (lmaxOf d Ntheta) P0 P1 p0 p1 x = some out ∧
          ∀ i r j s, (sphereRows d 1 0 P0 p0)[i]? = some r → (sphereCols d 1 0 P1 p1)[j]? = some s →
            out i j = a r s ∧ sphereAverage d Nphi (lmaxOf d Ntheta) P0 P1 p0 p1 x i j = a r s) ∧
      ∀ θ φ, sphereValue d 1 0 a θ φ =
        (∫ x in (0 : ℝ)..Real.pi, (∫ φ in (0 : ℝ)..2 * Real.pi, sphereValue d Nphi (lmaxOf d Ntheta) c x φ) * Real.sin x) / (4 * Real.pi : ℝ) := by
  refine ⟨c, ?_, fun θ φ => sphere_mean d Nphi Ntheta h c c (fun _ _ => rfl) θ φ⟩
  intro p0 p1 x hp0 hp1 hx
  obtain ⟨e1, e2⟩ := shape_zero d P0 P1 p0 p1 hp0 hp1
  unfold sphericalAverage sphereAverage
  rw [e1, e2]
  by_cases h0 : p0 = 0
  · by_cases h1 : p1 = 0
    · subst h0 h1
      simp only [if_true, List.length_range, List.length_singleton]
      obtain ⟨r1, r2, r3⟩ := first_row d Nphi Ntheta P0 (by omega) h
      obtain ⟨c1, c2, c3⟩ := first_col d Nphi (lmaxOf d Ntheta) P1 (by omega)
      rw [r1, c1]
      obtain ⟨out, ho1, ho2⟩ := ellAverage_eq (sphereName d Nphi (lmaxOf d Ntheta)) d.parts (sphereRows d Nphi (lmaxOf d Ntheta) P0 0).length
        (sphereCols d Nphi (lmaxOf d Ntheta) P1 0).length d.parts 1 x r2 c2 (fun i j hi hj => by
          have : j = 0 := by omega
          subst this
          rw [degree_zero d Nphi Ntheta h i hi])
      refine ⟨out, ho1, ?_⟩
      intro i r j s hr hs
      rw [List.getElem?_eq_some_iff] at hr hs
      obtain ⟨hi, hr⟩ := hr
      obtain ⟨hj, hs⟩ := hs
      simp only [List.length_range, List.getElem_range] at hi hr
      simp only [List.length_singleton] at hj
      have hj0 : j = 0 := by omega
      subst hj0 hr
      simp only [List.getElem_cons_zero] at hs
      subst hs
      have hxi := hx i i 0 0 (r3 i hi) c3
      refine ⟨by rw [ho2 i 0 hi (by omega), hxi], ?_⟩
      rw [if_pos ⟨by omega, by omega⟩, r3 i hi, c3]
      simp only
      rw [degree_zero d Nphi Ntheta h i hi]
      simp [hxi]
    · simp only [if_neg h1, List.length_nil]
      rw [ellAverage_empty _ _ _ _ _ _ _ _ _ (Or.inr rfl)]
      exact ⟨_, rfl, fun i r j s _ hs => by simp at hs⟩
  · simp only [if_neg h0, List.length_nil]
    rw [ellAverage_empty _ _ _ _ _ _ _ _ _ (Or.inl rfl)]
    exact ⟨_, rfl, fun i r j s hr => by simp at hr⟩

/-- A real sphere of 8 by 6 points on 2 by 2 processes: only process (0, 0) has output, the coefficients of order and degree zero. -/
example : Allowed .real 8 6 ∧
    ((sphericalAverage .real 8 4 2 2 0 0 fun i j => (10 * i + j : Nat)).map fun f => (List.range 2).map fun i => f i 0) = some [0, 10] ∧
    (sphereRows .real 8 4 2 0).length = 2 ∧ (sphereCols .real 8 4 2 0).length = 4 ∧ (sphereRows .real 1 0 2 1).length = 0 := by
  refine ⟨⟨by omega, Or.inr ⟨by omega, by decide, by omega⟩⟩, ?_⟩
  decide +kernel

end Dedalus.Average
