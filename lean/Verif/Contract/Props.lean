import Verif.Contract.Lemmas
import Verif.Ball.Props

/-!
# Properties of traces, transpositions, rotations and components of tensors
-/

namespace Dedalus.Contract

open Regularity (T mem_T intertwiner mix)
open Regularity.Spec (Component)

/-! ## C72: traces, transpositions, rotations by a right angle and components -/

/-- `idx'` is `idx` with the entries at `i` and `j` exchanged. -/
def Spec.Exchanged {α : Type} (i j : Nat) (idx idx' : List α) : Prop :=
  idx'.length = idx.length ∧ idx'[i]? = idx[j]? ∧ idx'[j]? = idx[i]? ∧ ∀ k, k ≠ i → k ≠ j → idx'[k]? = idx[k]?

theorem exchanged_of {α : Type} {n i j : Nat} (hi : i < n) (hj : j < n) {idx idx' : List α} (hl : idx.length = n) (h : Swapped i j idx idx') : Spec.Exchanged i j idx idx' := by
  refine ⟨by rw [swapped_length hi hj hl h, hl], ?_, ?_, ?_⟩
  · rw [h i]; simp [sw]
  · rw [h j]
    congr 1
    unfold sw
    split_ifs with h1 h2
    · exact h1
    · rfl
    · exact absurd rfl h2
  · intro k h1 h2; rw [h k]; simp [sw, h1, h2]

theorem exchanged_unique {α : Type} {i j : Nat} {idx a b : List α} (h : Spec.Exchanged i j idx a) (h' : Spec.Exchanged i j idx b) : a = b := by
  apply List.ext_getElem?
  intro k
  by_cases h1 : k = i
  · rw [h1, h.2.1, h'.2.1]
  · by_cases h2 : k = j
    · rw [h2, h.2.2.1, h'.2.2.1]
    · rw [h.2.2.2 k h1 h2, h'.2.2.2 k h1 h2]

/-- Transposition with indices counted from the front exchanges the two tensor indices of every element. -/
theorem transpose_partial {α : Type} (rank dim i j : Nat) (hi : i < rank) (hj : j < rank) (hij : i ≠ j) (data : List Nat → α) :
    ∃ out, transpose rank dim (i, j) data = some out ∧ ∀ idx idx', idx.length = rank + dim → Spec.Exchanged i j idx idx' → out idx = data idx' := by
  refine ⟨fun idx => data (permute ((List.range (rank + dim)).map (sw i j)) idx), ?_, ?_⟩
  · unfold transpose
    rw [order_eq rank dim i j hi hj hij]
    simp only [Option.bind_eq_bind, Option.bind_some]
    rw [normal_swap _ i j (by omega) (by omega)]
    rfl
  · intro idx idx' hl he
    rw [exchanged_unique he (exchanged_of (by omega) (by omega) hl (permute_swapped _ i j (by omega) (by omega) idx hl))]

/-- Equal indices, and indices beyond the rank, are rejected. -/
theorem transpose_rejects {α : Type} (rank dim i j : Nat) (h : i = j ∨ rank ≤ i ∨ rank ≤ j) (data : List Nat → α) :
    (transpose rank dim (i, j) data).isNone ∧ (transposeColumn (α := α) rank dim (i, j)).isNone := by
  have e : newAxisOrder rank dim (i, j) = none := by
    unfold newAxisOrder fromEnd
    simp only [show ¬ ((i : Int) < 0) by omega, show ¬ ((j : Int) < 0) by omega, if_false]
    split_ifs
    · rfl
    · rfl
    · rfl
    · exfalso; omega
  unfold transpose transposeColumn
  rw [e]
  exact ⟨rfl, rfl⟩

/-- The indices `(0, -1)` of a tensor of rank 2 are valid and mean `(0, 1)`. The evaluation exchanges the first index with the last axis of the grid instead, and the
matrix cannot be built. -/
theorem transpose_negative_refuted : ∃ (data : List Nat → Nat) (out : List Nat → Nat) (idx idx' : List Nat),
    fromEnd 2 (-1) = 1 ∧ transpose 2 2 (0, -1) data = some out ∧ idx.length = 4 ∧ Spec.Exchanged 0 1 idx idx' ∧ out idx ≠ data idx' ∧
      (transposeColumn (α := Nat) 2 2 (0, -1)).isNone := by
  refine ⟨fun l => l.head?.getD 7, fun idx => (permute [3, 1, 2, 0] idx).head?.getD 7, [0, 1, 0, 0], [1, 0, 0, 0], rfl, ?_, rfl, ?_, ?_, rfl⟩
  · rfl
  · refine ⟨rfl, rfl, rfl, ?_⟩
    intro k h1 h2
    match k, h1, h2 with
    | k + 2, _, _ => rfl
  · decide

theorem recombined_conj (ell rankOut rankIn : Nat) (A : List Int → List Int → ℝ) (Φ : (List Int → ℝ) → List Int → ℝ)
    (hA : ∀ q, ∀ τ ∈ T rankOut, ∑ s ∈ T rankIn, A τ s * q s = Φ q τ) (out inp : List Int) : recombined ell rankOut rankIn A out inp = Regularity.conj ell rankOut Φ out inp := by
  change ∑ s' ∈ T rankOut, ∑ s ∈ T rankIn, intertwiner ell out s' * A s' s * intertwiner ell inp s = ∑ t ∈ T rankOut, intertwiner ell out t * Φ (intertwiner ell inp) t
  apply Finset.sum_congr rfl
  intro s' hs'
  rw [← hA _ s' hs', Finset.mul_sum]
  exact Finset.sum_congr rfl fun s _ => by ring

theorem radial_combination (dim N : Nat) (radius k : ℝ) (l rank : Nat) (x : List Int → ℂ) (c : List Int → Nat → ℂ) (r : ℝ) :
    Zernike.Spec.radial dim N radius k l (fun n => ∑ b ∈ T rank, x b * c b n) r = ∑ b ∈ T rank, x b * Zernike.Spec.radial dim N radius k l (c b) r := by
  unfold Zernike.Spec.radial
  simp only [Finset.mul_sum, Finset.sum_mul]
  rw [Finset.sum_comm]
  exact Finset.sum_congr rfl fun b _ => Finset.sum_congr rfl fun n _ => by ring

theorem apply_sum (ell rankOut rankIn : Nat) (A : List Int → List Int → ℝ) (c : List Int → Nat → ℂ) (out : List Int) (n : Nat) :
    applyRecombined ell rankOut rankIn A c out n = ∑ inp ∈ T rankIn, (recombined ell rankOut rankIn A out inp : ℂ) * c inp n := rfl

theorem field_recombined (ell rankOut rankIn N : Nat) (radius k : ℝ) (A : List Int → List Int → ℝ) (Φ : (List Int → ℝ) → List Int → ℝ)
    (hA : ∀ q, ∀ τ ∈ T rankOut, ∑ s ∈ T rankIn, A τ s * q s = Φ q τ) (hΦ : Regularity.Invariant ell rankIn rankOut Φ) (c : List Int → Nat → ℂ) (τ : List Int) (hτ : τ ∈ T rankOut) (r : ℝ) :
    Ball.Spec.field ell rankOut N radius k (applyRecombined ell rankOut rankIn A c) τ r =
      ∑ b ∈ T rankIn, (Φ (intertwiner ell b) τ : ℂ) * Zernike.Spec.radial 3 N radius k (ell + b.sum).toNat (c b) r := by
  have h := hΦ.field (fun deg c r => Zernike.Spec.radial 3 N radius k ((ell : Int) + deg).toNat c r) r (fun deg x c => radial_combination 3 N radius k _ _ x c r) c τ hτ
  rw [← h]
  unfold Ball.Spec.field
  rw [Ball.spin_mix]
  apply Ball.mix_congr ell rankOut _ _ τ ((mem_T _ _).1 hτ).1
  intro b' _ _
  apply Zernike.radial_congr
  intro n _
  rw [apply_sum]
  exact Finset.sum_congr rfl fun b _ => by rw [recombined_conj ell rankOut rankIn A Φ hA]

/-- The trace in the ball of a tensor field of any rank: the coefficients computed by the matrix are those of the field whose spin components
are the sums over the pairs of directions `00`, `+-`, `-+`. -/
theorem spherical_trace_exact (ell rank N : Nat) (radius k : ℝ) (c : List Int → Nat → ℂ) (τ : List Int) (hτ : Component rank τ) (r : ℝ) :
    Ball.Spec.field ell rank N radius k (applyRecombined ell rank (rank + 2) sphericalTrace c) τ r =
      Ball.Spec.field ell (rank + 2) N radius k c (0 :: 0 :: τ) r + Ball.Spec.field ell (rank + 2) N radius k c (1 :: -1 :: τ) r +
        Ball.Spec.field ell (rank + 2) N radius k c (-1 :: 1 :: τ) r := by
  have hτ' : τ ∈ T rank := (mem_T _ _).2 hτ
  have hA : ∀ q : List Int → ℝ, ∀ τ ∈ T rank, ∑ s ∈ T (rank + 2), sphericalTrace τ s * q s = tr q τ := by
    intro q τ ht
    rw [← Regularity.tot_sum, Regularity.tot_succ, Regularity.tot_succ, Regularity.tot_succ, Regularity.tot_succ]
    simp only [Regularity.tot_sum]
    have hs : ∀ a b : Int, ∑ s ∈ T rank, sphericalTrace τ (a :: b :: s) * q (a :: b :: s) = traceSpin (3 * spinPlace a + spinPlace b) * q (a :: b :: τ) := by
      intro a b
      rw [Finset.sum_eq_single τ]
      · simp [sphericalTrace]
      · intro x _ hx; simp [sphericalTrace, hx.symm]
      · intro h; exact absurd ht h
    simp only [hs]
    norm_num [traceSpin, spinPlace, tr]
    ring
  rw [field_recombined ell rank (rank + 2) N radius k sphericalTrace tr hA (trace_invariant ell rank) c τ hτ' r]
  change _ = ∑ b ∈ T (rank + 2), _ + ∑ b ∈ T (rank + 2), _ + ∑ b ∈ T (rank + 2), _
  rw [← Finset.sum_add_distrib, ← Finset.sum_add_distrib]
  apply Finset.sum_congr rfl
  intro b _
  unfold tr
  push_cast
  ring

theorem column_eq (rank dim i j : Nat) (hi : i < rank) (hj : j < rank) (hij : i ≠ j) : transposeColumn (α := Int) rank dim (i, j) = some (swapAt rank i j) := by
  unfold transposeColumn
  rw [order_eq rank dim i j hi hj hij]
  simp only [Option.bind_eq_bind, Option.bind_some]
  rw [← List.map_take, take_swap rank dim i j hi hj, normal_swap _ i j hi hj]
  rfl

/-- Transposition in the ball of a tensor field of any rank: the coefficients computed by the matrix are those of the field with the two
indices exchanged. -/
theorem spherical_transpose_exact (ell rank dim N i j : Nat) (hi : i < rank) (hj : j < rank) (hij : i ≠ j) (radius k : ℝ) (c : List Int → Nat → ℂ) (τ τ' : List Int)
    (hτ : Component rank τ) (he : Spec.Exchanged i j τ τ') (r : ℝ) :
    ∃ column, transposeColumn rank dim (i, j) = some column ∧
      Ball.Spec.field ell rank N radius k (applyRecombined ell rank rank (sphericalTranspose column) c) τ r = Ball.Spec.field ell rank N radius k c τ' r := by
  refine ⟨_, column_eq rank dim i j hi hj hij, ?_⟩
  have hτ' : τ ∈ T rank := (mem_T _ _).2 hτ
  have hA : ∀ q : List Int → ℝ, ∀ τ ∈ T rank, ∑ s ∈ T rank, sphericalTranspose (swapAt rank i j) τ s * q s = q (swapAt rank i j τ) := by
    intro q τ ht
    rw [Finset.sum_eq_single (swapAt rank i j τ)]
    · simp [sphericalTranspose]
    · intro x _ hx; simp [sphericalTranspose, hx]
    · intro h; exact absurd (swapAt_mem hi hj τ ht) h
  rw [field_recombined ell rank rank N radius k _ (fun q τ => q (swapAt rank i j τ)) hA (swap_invariant ell rank i j hi hj) c τ hτ' r,
    exchanged_unique he (exchanged_of hi hj hτ.1 (swapAt_spec hi hj τ hτ.1))]
  rfl

/-- The evaluation of a transposition in coefficient space and the matrix agree. -/
theorem spherical_transpose_evaluation (ell rank i j : Nat) (hi : i < rank) (hj : j < rank) (c : List Int → Nat → ℂ) (out : List Int) (n : Nat) :
    transposeRecombined ell rank (swapAt rank i j) c out n = applyRecombined ell rank rank (sphericalTranspose (swapAt rank i j)) c out n := by
  change ∑ s ∈ T rank, (intertwiner ell out s : ℂ) * ∑ reg ∈ T rank, (intertwiner ell reg (swapAt rank i j s) : ℂ) * c reg n =
    ∑ inp ∈ T rank, ((∑ s' ∈ T rank, ∑ s ∈ T rank, intertwiner ell out s' * sphericalTranspose (swapAt rank i j) s' s * intertwiner ell inp s : ℝ) : ℂ) * c inp n
  have e : ∀ inp, ∑ s' ∈ T rank, ∑ s ∈ T rank, intertwiner ell out s' * sphericalTranspose (swapAt rank i j) s' s * intertwiner ell inp s =
      ∑ s' ∈ T rank, intertwiner ell out s' * intertwiner ell inp (swapAt rank i j s') := by
    intro inp
    apply Finset.sum_congr rfl
    intro s' hs'
    rw [Finset.sum_eq_single (swapAt rank i j s')]
    · simp [sphericalTranspose]
    · intro x _ hx; simp [sphericalTranspose, hx]
    · intro h; exact absurd (swapAt_mem hi hj s' hs') h
  simp only [e, Finset.mul_sum]
  rw [Finset.sum_comm]
  apply Finset.sum_congr rfl
  intro inp _
  push_cast
  rw [Finset.sum_mul]
  exact Finset.sum_congr rfl fun s _ => by ring

/-! ### Traces -/

/-- The sum of the diagonal elements. -/
def Spec.trace {α : Type} [AddCommMonoid α] (d : Nat) (u : Nat → Nat → α) : α := ∑ i ∈ Finset.range d, u i i

theorem pair_sum {R : Type} [Semiring R] (d : Nat) (F : Nat → Nat → R) : ∑ p ∈ Finset.range (d * d), F (p / d) (p % d) = ∑ i ∈ Finset.range d, ∑ j ∈ Finset.range d, F i j := by
  rw [← Finset.sum_product']
  rcases Nat.eq_zero_or_pos d with rfl | hd
  · simp
  refine Finset.sum_nbij' (fun p => (p / d, p % d)) (fun q => q.1 * d + q.2) ?_ ?_ ?_ ?_ ?_
  · intro p hp
    rw [Finset.mem_range] at hp
    simp only [Finset.mem_product, Finset.mem_range]
    exact ⟨Nat.div_lt_of_lt_mul hp, Nat.mod_lt p hd⟩
  · intro q hq
    simp only [Finset.mem_product, Finset.mem_range] at hq ⊢
    calc q.1 * d + q.2 < q.1 * d + d := by omega
      _ = (q.1 + 1) * d := by ring
      _ ≤ d * d := Nat.mul_le_mul_right d (by omega)
  · intro p _; exact Nat.div_add_mod' p d
  · intro q hq
    simp only [Finset.mem_product, Finset.mem_range] at hq
    ext
    · simp only; rw [Nat.add_comm, Nat.add_mul_div_right _ _ hd, Nat.div_eq_of_lt hq.2, Nat.zero_add]
    · simp only; rw [Nat.add_comm, Nat.add_mul_mod_self_right, Nat.mod_eq_of_lt hq.2]
  · intro p _; rfl

/-- The evaluated trace is the sum of the diagonal, and so is the product of the Cartesian matrix with the components. -/
theorem trace_cartesian {R : Type} [Semiring R] (d : Nat) (data : List Nat → R) (idx : List Nat) :
    traceGrid d data idx = Spec.trace d (fun i j => data (i :: j :: idx)) ∧ pairRow d (cartesianTraceRow d) data idx = Spec.trace d (fun i j => data (i :: j :: idx)) := by
  refine ⟨rfl, ?_⟩
  unfold pairRow cartesianTraceRow Spec.trace
  rw [pair_sum d (fun i j => (if i = j then 1 else 0) * data (i :: j :: idx))]
  apply Finset.sum_congr rfl
  intro i hi
  rw [Finset.sum_eq_single i]
  · simp
  · intro j _ hj; simp [hj.symm]
  · intro h; exact absurd hi h

/-- The spin components of both indices of a tensor with the given components. -/
noncomputable def Spec.spinPair (U : Nat → Nat → ℂ) (d : Nat) (u : Nat → Nat → ℂ) (a b : Nat) : ℂ := ∑ i ∈ Finset.range d, ∑ j ∈ Finset.range d, U a i * U b j * u i j

/-- The polar matrix, applied to the spin components, gives the trace of the components along the coordinates. -/
theorem trace_polar (u : Nat → Nat → ℂ) (idx : List Nat) :
    pairRow 2 polarTraceRow (fun l => match l with | a :: b :: _ => Spec.spinPair Spin.uForward.entry 2 u a b | _ => 0) idx = Spec.trace 2 u := by
  unfold pairRow polarTraceRow Spec.trace Spec.spinPair Spin.uForward
  have h2 := Spin.sqrt2_mul
  have hn := Spin.sqrt2_ne
  simp only [Finset.sum_range_succ, Finset.sum_range_zero]
  norm_num
  generalize ((√2 : ℝ) : ℂ) = s at *
  have hI := Complex.I_mul_I
  field_simp
  rw [sq, h2]
  linear_combination (-2 * u 0 0) * hI

/-- The spherical row of the trace, applied to the spin components, gives the trace of the components along the coordinates. -/
theorem trace_spherical (u : Nat → Nat → ℂ) : ∑ p ∈ Finset.range 9, (traceSpin p : ℂ) * Spec.spinPair Spin.uSpherical.entry 3 u (p / 3) (p % 3) = Spec.trace 3 u := by
  unfold traceSpin Spec.trace Spec.spinPair Spin.uSpherical
  have h2 := Spin.sqrt2_mul
  have hn := Spin.sqrt2_ne
  simp only [Finset.sum_range_succ, Finset.sum_range_zero]
  norm_num
  generalize ((√2 : ℝ) : ℂ) = s at *
  have hI := Complex.I_mul_I
  field_simp
  rw [sq, h2]
  linear_combination (-2 * u 0 0) * hI

/-- The sum of the traces of the blocks of a direct product is the trace. -/
theorem trace_product {α : Type} [AddCommMonoid α] (dims : List Nat) (data : List Nat → α) (idx : List Nat) :
    productTrace data idx 0 dims = Spec.trace dims.sum (fun i j => data (i :: j :: idx)) := by
  have : ∀ (ds : List Nat) (start : Nat), productTrace data idx start ds = ∑ i ∈ Finset.range ds.sum, data ((start + i) :: (start + i) :: idx) := by
    intro ds
    induction ds with
    | nil => intro start; simp [productTrace]
    | cons d ds ih =>
      intro start
      rw [productTrace, ih, List.sum_cons, Finset.sum_range_add]
      simp only [Nat.add_assoc]
  rw [this]
  unfold Spec.trace
  simp only [Nat.zero_add]

/-! ### Rotation by a right angle -/

theorem kron_id {R : Type} [Semiring R] : ∀ (shape idx : List Nat) (u : List Nat → R), List.Forall₂ (· < ·) idx shape → kronApply (shape.map idFactor) u idx = u idx
  | [], _, u, h => by cases h; rfl
  | n :: shape, _, u, h => by
    cases h with
    | cons ha h =>
      rename_i a as
      rw [List.map_cons, kronApply]
      rw [Finset.sum_eq_single a]
      · rw [kron_id shape as _ h]; simp [idFactor]
      · intro b _ hb; simp [idFactor, hb.symm]
      · intro hh; exact absurd (Finset.mem_range.2 ha) hh

theorem kron_set {R : Type} [Semiring R] (A : Factor R) : ∀ (shape idx : List Nat) (u : List Nat → R) (p a : Nat), List.Forall₂ (· < ·) idx shape → idx[p]? = some a →
    kronApply ((shape.map idFactor).set p A) u idx = ∑ j ∈ Finset.range A.size, A.entry a j * u (idx.set p j)
  | [], _, u, p, a, h, hp => by cases h; simp at hp
  | n :: shape, _, u, p, a, h, hp => by
    cases h with
    | cons ha h =>
      rename_i b as
      cases p with
      | zero =>
        simp only [List.getElem?_cons_zero, Option.some.injEq] at hp
        subst hp
        rw [List.map_cons, List.set_cons_zero, kronApply]
        apply Finset.sum_congr rfl
        intro j _
        rw [kron_id shape as _ h]; rfl
      | succ p =>
        rw [List.map_cons, List.set_cons_succ, kronApply, Finset.sum_eq_single b]
        · rw [kron_set A shape as _ p a h (by simpa using hp)]; simp [idFactor]
        · intro c _ hc; simp [idFactor, hc.symm]
        · intro hh; exact absurd (Finset.mem_range.2 ha) hh

theorem kron_set2 {R : Type} [Semiring R] (A B : Factor R) : ∀ (shape idx : List Nat) (u : List Nat → R) (p q a b : Nat), p < q → List.Forall₂ (· < ·) idx shape → idx[p]? = some a → idx[q]? = some b →
    kronApply (((shape.map idFactor).set p A).set q B) u idx = ∑ j ∈ Finset.range A.size, A.entry a j * ∑ k ∈ Finset.range B.size, B.entry b k * u ((idx.set p j).set q k)
  | [], _, u, p, q, a, b, _, h, hp, hq => by cases h; simp at hp
  | n :: shape, _, u, p, q, a, b, hpq, h, hp, hq => by
    cases h with
    | cons ha h =>
      rename_i c as
      obtain ⟨q, rfl⟩ : ∃ q', q = q' + 1 := ⟨q - 1, by omega⟩
      cases p with
      | zero =>
        simp only [List.getElem?_cons_zero, Option.some.injEq] at hp
        subst hp
        rw [List.map_cons, List.set_cons_zero, List.set_cons_succ, kronApply]
        apply Finset.sum_congr rfl
        intro j _
        rw [kron_set B shape as _ q b h (by simpa using hq)]; rfl
      | succ p =>
        rw [List.map_cons, List.set_cons_succ, List.set_cons_succ, kronApply, Finset.sum_eq_single c]
        · rw [kron_set2 A B shape as _ p q a b (by omega) h (by simpa using hp) (by simpa using hq)]; simp [idFactor]
        · intro c' _ hc; simp [idFactor, hc.symm]
        · intro hh; exact absurd (Finset.mem_range.2 ha) hh

/-- In Cartesian coordinates the vector `(x, y)` is rotated to `(-y, x)`. -/
theorem skew_cartesian {R : Type} [Ring R] (u : Nat → R) : cartesianSkew u 0 = -u 1 ∧ cartesianSkew u 1 = u 0 := by simp [cartesianSkew]

/-- With azimuthal component `u 0` and radial or colatitudinal component `u 1` the vector is rotated in the same sense, from the direction of
`u 1` to the azimuthal direction, in grid space and in spin components. -/
theorem skew_spin (u : Nat → ℂ) : gridSkew u 0 = u 1 ∧ gridSkew u 1 = -u 0 ∧
    ∀ a < 2, ∑ i ∈ Finset.range 2, Spin.uForward.entry a i * gridSkew u i = spinSkew (fun b => ∑ i ∈ Finset.range 2, Spin.uForward.entry b i * u i) a := by
  refine ⟨by simp [gridSkew], by simp [gridSkew], ?_⟩
  have h2 := Spin.sqrt2_mul
  have hn := Spin.sqrt2_ne
  have hI := Complex.I_mul_I
  intro a ha
  interval_cases a <;> simp only [Finset.sum_range_succ, Finset.sum_range_zero, spinSkew, gridSkew, Spin.uForward] <;> norm_num <;>
    generalize ((√2 : ℝ) : ℂ) = s at * <;> field_simp
  · linear_combination (-u 0) * hI
  · linear_combination (-u 0) * hI

/-- Real data hold the real and imaginary parts at even and odd places along the azimuth; their rotation is the rotation of the complex numbers. -/
theorem skew_real (u : Nat → Nat → ℝ) (a m : Nat) (ha : a < 2) :
    ((spinSkewReal u a (2 * m) : ℝ) : ℂ) + Complex.I * ((spinSkewReal u a (2 * m + 1) : ℝ) : ℂ) = spinSkew (fun b => (u b (2 * m) : ℂ) + Complex.I * (u b (2 * m + 1) : ℂ)) a := by
  have hI := Complex.I_mul_I
  have h1 : (2 * m + 1) % 2 = 1 := by omega
  interval_cases a
  · simp [spinSkewReal, spinSkew, h1]
    linear_combination (u 0 (2 * m + 1) : ℂ) * hI
  · simp [spinSkewReal, spinSkew, h1]
    linear_combination (-(u 1 (2 * m + 1) : ℂ)) * hI

theorem place_nat (n p : Nat) (h : p < n) : place n (p : Int) = some p := by
  unfold place
  rw [if_pos ⟨by omega, by omega⟩]
  simp

theorem cartesian_factors {R : Type} [Ring R] (dims : List Nat) (coeffs p : Nat) (hlt : p < dims.length) : cartesianSkewFactors (R := R) dims coeffs (p : Int) =
    some (((dims ++ [coeffs]).map idFactor).set p ⟨2, fun i j => if i = 0 ∧ j = 1 then -1 else if i = 1 ∧ j = 0 then 1 else 0⟩) := by
  unfold cartesianSkewFactors setFactor
  rw [place_nat _ p (by simp; omega)]
  rfl

theorem spin_factors {R : Type} [Ring R] (shape : List Nat) (rank az p n : Nat) (h1 : p < shape.length) (h2 : rank + az < shape.length) (hn : shape[az]? = some n) :
    spinSkewFactors (R := R) shape rank az (p : Int) =
      some (((shape.map idFactor).set p ⟨2, fun i j => if i = 0 ∧ j = 0 then -1 else if i = 1 ∧ j = 1 then 1 else 0⟩).set (rank + az)
        ⟨2 * (n / 2), fun i j => if i / 2 = j / 2 then (if i % 2 = 0 ∧ j % 2 = 1 then -1 else if i % 2 = 1 ∧ j % 2 = 0 then 1 else 0) else 0⟩) := by
  unfold spinSkewFactors setFactor
  rw [place_nat _ p (by simpa using h1)]
  simp only [Option.map_some, Option.bind_eq_bind, Option.bind_some, hn]
  rw [place_nat _ (rank + az) (by simpa using h2)]
  rfl

/-- The Cartesian matrix agrees with the evaluation for an index counted from the front. -/
theorem skew_cartesian_matrix_partial {R : Type} [Ring R] (dims : List Nat) (coeffs p : Nat) (hp : dims[p]? = some 2) (idx : List Nat) (hidx : List.Forall₂ (· < ·) idx (dims ++ [coeffs])) (u : List Nat → R) :
    ∃ factors a, cartesianSkewFactors (R := R) dims coeffs (p : Int) = some factors ∧ idx[p]? = some a ∧
      kronApply factors u idx = cartesianSkew (fun j => u (idx.set p j)) a := by
  have hlt : p < dims.length := (List.getElem?_eq_some_iff.1 hp).1
  have hl := hidx.length_eq
  rw [List.length_append, List.length_singleton] at hl
  have hpi : p < idx.length := by omega
  refine ⟨_, idx[p], cartesian_factors dims coeffs p hlt, List.getElem?_eq_getElem hpi, ?_⟩
  · rw [kron_set _ _ idx u p _ hidx (List.getElem?_eq_getElem hpi)]
    have ha : idx[p] < 2 := by
      have h1 := hidx.get hpi (by rw [List.length_append]; omega)
      rw [List.get_eq_getElem, List.get_eq_getElem] at h1
      have h2 : (dims ++ [coeffs])[p]'(by rw [List.length_append]; omega) = 2 := by
        rw [List.getElem_append_left hlt]
        exact (List.getElem?_eq_some_iff.1 hp).2
      simpa [h2] using h1
    simp only [Finset.sum_range_succ, Finset.sum_range_zero]
    generalize idx[p] = a at *
    interval_cases a <;> simp [cartesianSkew]

/-- With the index `-1` the matrix rotates the coefficients instead of the last index: for a vector with `n` coefficients the factors
are an identity and the rotation. -/
theorem skew_negative_refuted (n : Nat) : ∃ factors : List (Factor ℤ), cartesianSkewFactors [2] n (-1) = some factors ∧
    ∃ A, factors = [idFactor 2, A] ∧ ∀ u : List Nat → ℤ, ∀ a < 2, kronApply factors u [a, 0] = -u [a, 1] := by
  refine ⟨_, rfl, _, rfl, ?_⟩
  intro u a ha
  change ∑ j ∈ Finset.range 2, (if a = j then 1 else 0) * ∑ i ∈ Finset.range 2,
    (if 0 = 0 ∧ i = 1 then (-1 : ℤ) else if 0 = 1 ∧ i = 0 then 1 else 0) * u [j, i] = _
  simp only [Finset.sum_range_succ, Finset.sum_range_zero]
  interval_cases a <;> simp

/-- The matrix for real data agrees with the evaluation if the axis of the field shape at the place of the azimuth without the rank has the size of the
azimuth. -/
theorem skew_spin_matrix_partial {R : Type} [Ring R] (shape : List Nat) (rank az p m : Nat) (hpr : p < rank) (hp : shape[p]? = some 2) (haz : shape[rank + az]? = some (2 * m))
    (hm : ∃ n, shape[az]? = some n ∧ n / 2 = m) (idx : List Nat) (hidx : List.Forall₂ (· < ·) idx shape) (u : List Nat → R) :
    ∃ factors a q, spinSkewFactors (R := R) shape rank az (p : Int) = some factors ∧ idx[p]? = some a ∧ idx[rank + az]? = some q ∧
      kronApply factors u idx = spinSkewReal (fun j k => u ((idx.set p j).set (rank + az) k)) a q := by
  obtain ⟨n, hn, rfl⟩ := hm
  have h1 : p < shape.length := (List.getElem?_eq_some_iff.1 hp).1
  have h2 : rank + az < shape.length := (List.getElem?_eq_some_iff.1 haz).1
  have hl := hidx.length_eq
  have hpi : p < idx.length := by omega
  have hqi : rank + az < idx.length := by omega
  refine ⟨_, idx[p], idx[rank + az], spin_factors shape rank az p n h1 h2 hn, List.getElem?_eq_getElem hpi, List.getElem?_eq_getElem hqi, ?_⟩
  · rw [kron_set2 _ _ _ idx u p (rank + az) _ _ (by omega) hidx (List.getElem?_eq_getElem hpi) (List.getElem?_eq_getElem hqi)]
    have ha : idx[p] < 2 := by
      have h := hidx.get hpi h1
      simpa [(List.getElem?_eq_some_iff.1 hp).2] using h
    have hq : idx[rank + az] < 2 * (n / 2) := by
      have h := hidx.get hqi h2
      simpa [(List.getElem?_eq_some_iff.1 haz).2] using h
    generalize idx[p] = a at *
    generalize idx[rank + az] = q at *
    have hB : ∀ v : Nat → R, ∑ k ∈ Finset.range (2 * (n / 2)), (if q / 2 = k / 2 then (if q % 2 = 0 ∧ k % 2 = 1 then -1 else if q % 2 = 1 ∧ k % 2 = 0 then 1 else 0) else 0) * v k =
        if q % 2 = 0 then -v (q + 1) else v (q - 1) := by
      intro v
      by_cases hq2 : q % 2 = 0
      · rw [Finset.sum_eq_single (q + 1)]
        · rw [if_pos (by omega), if_pos (by omega), if_pos hq2]; simp
        · intro k _ hk
          split_ifs <;> first | (exfalso; omega) | simp
        · intro hh; exact absurd (Finset.mem_range.2 (by omega)) hh
      · rw [Finset.sum_eq_single (q - 1)]
        · rw [if_pos (by omega), if_neg (by omega), if_pos (by omega), if_neg hq2]; simp
        · intro k _ hk
          split_ifs <;> first | (exfalso; omega) | simp
        · intro hh; exact absurd (Finset.mem_range.2 (by omega)) hh
    simp only [hB, Finset.sum_range_succ, Finset.sum_range_zero, spinSkewReal]
    interval_cases a <;> simp

/-- For a vector of polar type on a domain with another axis of eight coefficients before the azimuth, the factor for the azimuth has size 8 instead of 2. -/
theorem skew_spin_matrix_refuted : ∃ factors : List (Factor ℤ), spinSkewFactors [2, 8, 2, 5] 1 1 0 = some factors ∧ factors.map Factor.size = [2, 8, 8, 5] :=
  ⟨_, rfl, rfl⟩

/-! ### Components -/

/-- The component along a direction has the elements of the operand with that value of the index, its signature loses the index, and the matrix selects the same elements,
for an index counted from the front. -/
theorem component_partial {α β : Type} (sig : List β) (index i : Nat) (hi : index < sig.length) (data : List Nat → α) :
    (∃ out, component sig.length (index : Int) i data = some out ∧ ∀ pre post, pre.length = index → out (pre ++ post) = data (pre ++ i :: post)) ∧
    componentSig sig (index : Int) = sig.take index ++ sig.drop (index + 1) ∧
    ∀ out inp, inp.length = sig.length → (componentEntry index i out inp = true ↔ ∃ pre post, pre.length = index ∧ out = pre ++ post ∧ inp = pre ++ i :: post) := by
  refine ⟨⟨fun idx => data (idx.take index ++ i :: idx.drop index), ?_, ?_⟩, ?_, ?_⟩
  · unfold component componentIndex axindex
    simp only [show ¬((index : Int) < 0) by omega, if_false, show ¬((sig.length : Int) ≤ index) by omega]
    rfl
  · intro pre post hl
    beta_reduce
    rw [List.take_left' hl, List.drop_left' hl]
  · unfold componentSig
    simp only [show ¬((index : Int) < 0) by omega, show ¬((index : Int) + 1 < 0) by omega, if_false]
    rw [show (min (index : Int) sig.length).toNat = index by omega, show (min ((index : Int) + 1) sig.length).toNat = index + 1 by omega]
  · intro out inp hl
    unfold componentEntry
    simp only [decide_eq_true_eq]
    constructor
    · rintro ⟨h1, h2⟩
      obtain ⟨hlt, hv⟩ := List.getElem?_eq_some_iff.1 h1
      refine ⟨inp.take index, inp.drop (index + 1), by simp; omega, ?_, ?_⟩
      · rw [← h2, List.eraseIdx_eq_take_drop_succ]
      · rw [← hv, ← List.drop_eq_getElem_cons hlt, List.take_append_drop]
    · rintro ⟨pre, post, h1, rfl, rfl⟩
      refine ⟨by rw [List.getElem?_append_right (by omega), h1]; simp, ?_⟩
      rw [List.eraseIdx_append_of_length_le (by omega), h1]
      simp

/-- With index `-1`, which means the last index, the radial component of a vector has the signature of a vector instead of a scalar. -/
theorem component_signature_refuted : componentIndex 1 (-1) = some 0 ∧ componentSig ["cs"] (-1) = ["cs"] ∧ componentSig ["cs"] 0 = ([] : List String) := ⟨rfl, rfl, rfl⟩

/-- The matrices that select a Cartesian component or the components of a factor of a direct product select the elements with these values of the index. -/
theorem selection_matrix {R : Type} [Semiring R] (shape : List Nat) (index sub d a : Nat) (hd : shape[index]? = some d) (data : List Nat → R) (idx : List Nat)
    (hidx : List.Forall₂ (· < ·) idx shape) (ha : idx[index]? = some a) (hs : sub + a < d) :
    selectionMatrix shape index sub data idx = some (data (idx.set index (sub + a))) := by
  unfold selectionMatrix
  rw [hd, Option.map_some, kron_set _ shape idx data index a hidx ha, Finset.sum_eq_single (sub + a)]
  · simp
  · intro j _ hj; simp [hj]
  · intro h; exact absurd (Finset.mem_range.2 hs) h

theorem assign_same (shape idx : List Nat) (n : Nat) (h : List.Forall₂ (· < ·) idx shape) : assignIndex shape (List.replicate n 1 ++ shape) idx = some idx := by
  unfold assignIndex
  have e : (List.replicate n 1 ++ shape).length - shape.length = n := by simp
  simp only [e]
  have t : (List.replicate n 1 ++ shape).take n = List.replicate n 1 := List.take_left' (by simp)
  have d : (List.replicate n 1 ++ shape).drop n = shape := List.drop_left' (by simp)
  rw [t, d, if_pos]
  · congr 1
    clear e t d
    induction h with
    | nil => rfl
    | cons hab _ ih =>
      rw [List.zipWith_cons_cons, ih]
      congr 1
      split_ifs <;> omega
  · refine ⟨by simp, rfl, ?_⟩
    clear h e t d
    induction shape with
    | nil => rfl
    | cons s shape ih => simp

/-- Evaluating the component along the first index gives the elements with this value of the index, for Cartesian components and for factors of direct products. -/
theorem cartesian_component_partial {α : Type} (d : Nat) (shape : List Nat) (sub width a : Nat) (data : List Nat → α) (idx : List Nat) (hidx : List.Forall₂ (· < ·) idx shape) (ha : a < width) :
    cartesianComponent (d :: shape) 0 sub data idx = some (data (sub :: idx)) ∧
    productComponent (d :: shape) 0 sub width data (a :: idx) = some (data ((sub + a) :: idx)) := by
  constructor
  · unfold cartesianComponent newAxisShape
    have := assign_same shape idx 0 hidx
    simp only [List.replicate_zero, List.nil_append] at this
    simp [this]
  · unfold productComponent newAxisShape
    have := assign_same (width :: shape) (a :: idx) 0 (List.Forall₂.cons ha hidx)
    simp only [List.replicate_zero, List.nil_append] at this
    simp [this]

/-- Evaluating a component along the second index takes it along the first one: for a tensor of shape `3 × 3` the component along `y` of the second index is the
second row instead of the second column. The matrix gives the column. -/
theorem cartesian_component_refuted : ∃ (data : List Nat → Nat), cartesianComponent [3, 3] 1 1 data [0] = some 10 ∧ selectionMatrix [3, 3] 1 1 data [0, 0] = some 1 ∧
    data [0, 1] = 1 ∧ data [1, 0] = 10 :=
  ⟨fun l => match l with | [a, b] => 10 * a + b | _ => 0, by decide, by decide, rfl, rfl⟩

example : Spec.Exchanged 0 1 [5, 6, 7] [6, 5, 7] := ⟨rfl, rfl, rfl, fun k h1 h2 => by match k, h1, h2 with | k + 2, _, _ => rfl⟩
example : List.Forall₂ (· < ·) [1, 0, 3] [2, 3, 4] := by decide
example : ([2, 2, 4, 5] : List Nat)[0]? = some 2 ∧ ([2, 2, 4, 5] : List Nat)[1 + 0]? = some (2 * 1) := ⟨rfl, rfl⟩

end Dedalus.Contract
