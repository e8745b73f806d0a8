import Verif.Maps.Lemmas

/-! C84. In sphere, shell and ball domains every coefficient is treated by the operators and transforms of its own
degree, for every size of the basis and every distribution over processes. -/

namespace Dedalus.Maps

/-- C84, complex dtype. The degree maps visit every local coefficient exactly once and with its own degree, for
every block of rows and columns held by a process, unless `Lmax` is even and `Lmax/2 + 2 ≤ Nphi/2 ≤ Lmax`. In the
excluded sizes the claim is false (`degree_maps_complex_refuted`). -/
theorem degree_maps_complex_partial (Nphi L r0 c0 R C : Nat) (h2 : Nphi % 2 = 0)
    (hgood : L % 2 = 1 ∨ Nphi / 2 < L / 2 + 2 ∨ L < Nphi / 2)
    (hR : r0 + R ≤ (Sphere.shapeComplex Nphi L).1) (hC : c0 + C ≤ (Sphere.shapeComplex Nphi L).2) :
    Partition (ellMaps (Sphere.groupComplex Nphi L) 1 r0 c0 R C)
      (fun i j => (Sphere.groupComplex Nphi L (r0 + i) (c0 + j)).2) R C := by
  refine partition_of_convex _ _ _ _ _ _ fun i j p q hj h1 h3 h4 => ?_
  simp only [Sphere.shapeComplex] at hR hC
  simp only [deg, Sphere.groupComplex]
  obtain ⟨M, rfl⟩ : ∃ M, Nphi = 2 * M := ⟨Nphi / 2, by omega⟩
  rw [show 2 * M / 2 = M by omega] at *
  have e : (2 * M + 1) / 2 = M := by omega
  rw [e]
  intro h
  by_cases hs : (L : Int) + 1 - M ≤ 0
  · rw [max_eq_left hs] at h ⊢
    split_ifs at h ⊢ <;> simp only at * <;> omega
  · rw [max_eq_right (by omega)] at h ⊢
    split_ifs at h ⊢ <;> simp only at * <;> omega

/-- C84, real dtype: the same, unless `Lmax` is even and `Lmax/2 + 3 ≤ Nphi/2 ≤ Lmax + 1`. -/
theorem degree_maps_real_partial (Nphi L r0 c0 R C : Nat) (h4 : Nphi % 4 = 0)
    (hgood : L % 2 = 1 ∨ Nphi / 2 < L / 2 + 3 ∨ L + 1 < Nphi / 2)
    (hR : r0 + R ≤ (Sphere.shapeReal Nphi L).1) (hC : c0 + C ≤ (Sphere.shapeReal Nphi L).2) :
    Partition (ellMaps (Sphere.groupReal Nphi L) 2 r0 c0 R C)
      (fun i j => (Sphere.groupReal Nphi L (r0 + i) (c0 + j)).2) R C := by
  refine partition_of_convex _ _ _ _ _ _ fun i j p q hj h1 h3 h5 => ?_
  simp only [Sphere.shapeReal] at hR hC
  simp only [deg, Sphere.groupReal]
  obtain ⟨Q, rfl⟩ : ∃ Q, Nphi = 4 * Q := ⟨Nphi / 4, by omega⟩
  rw [show 4 * Q / 2 = 2 * Q by omega] at *
  intro h
  by_cases hs : (L : Int) + 2 - (2 * Q : Nat) ≤ 0
  · rw [max_eq_left hs] at h ⊢
    split_ifs at h ⊢ <;> simp only at * <;> omega
  · rw [max_eq_right (by omega)] at h ⊢
    split_ifs at h ⊢ <;> simp only at * <;> omega

example : Partition (ellMaps (Sphere.groupComplex 12 7) 1 2 1 3 6)
    (fun i j => (Sphere.groupComplex 12 7 (2 + i) (1 + j)).2) 3 6 :=
  degree_maps_complex_partial 12 7 2 1 3 6 (by decide) (by decide) (by decide) (by decide)
example : Partition (ellMaps (Sphere.groupReal 16 6) 2 4 0 4 7)
    (fun i j => (Sphere.groupReal 16 6 (4 + i) (0 + j)).2) 4 7 :=
  degree_maps_real_partial 16 6 4 0 4 7 (by decide) (by decide) (by decide) (by decide)

/-- C84. Whenever the maps are a partition, operators, recombinations and radial transforms act on each coefficient
vector once, with the matrix of its own degree. -/
theorem own_degree {V W : Type*} [AddCommMonoid V] (maps : List Entry) (ell : Nat → Nat → Int) (R C : Nat)
    (h : Partition maps ell R C) (A : Int → V → V) (B : Int → V → W) (x : Nat → Nat → V) (y : Nat → Nat → W) (i j : Nat)
    (hi : i < R) (hj : j < C) :
    operate maps A x i j = A (ell i j) (x i j) ∧ inPlace maps A x i j = A (ell i j) (x i j) ∧
      assign maps B x y i j = B (ell i j) (x i j) := by
  have := h.1 i j hi hj
  rw [operate_eq, inPlace_eq, assign_eq, this]
  simp

/-- C84 is false: with complex dtype, on one process, whenever `Lmax` is even and `Lmax/2 + 2 ≤ Nphi/2 ≤ Lmax` (for
example `shape = (8, 5)`), the coefficient of order 1 and degree `ell = Nphi/2 - Lmax/2 - 1`, at row 1 and column
`Lmax/2`, is also treated as having degree `Lmax/2`, which it has not. An operator adds the two results; a
recombination applies both matrices. -/
theorem degree_maps_complex_refuted (Nphi L : Nat) (h2 : Nphi % 2 = 0) (hL : L % 2 = 0) (h3 : L / 2 + 2 ≤ Nphi / 2)
    (h4 : Nphi / 2 ≤ L) :
    let maps := ellMaps (Sphere.groupComplex Nphi L) 1 0 0 (Sphere.shapeComplex Nphi L).1 (Sphere.shapeComplex Nphi L).2
    let own : Int := (Nphi / 2 : Nat) - (L / 2 : Nat) - 1
    Sphere.groupComplex Nphi L 1 (L / 2) = (1, own) ∧ own ≠ (L / 2 : Nat) ∧
      (visits maps 1 (L / 2)).Perm [own, (L / 2 : Nat)] ∧
      ∀ {V : Type} [AddCommMonoid V] (A : Int → V → V) (x : Nat → Nat → V),
        operate maps A x 1 (L / 2) = A own (x 1 (L / 2)) + A (L / 2 : Nat) (x 1 (L / 2)) := by
  intro maps own
  obtain ⟨M, rfl⟩ : ∃ M, Nphi = 2 * M := ⟨Nphi / 2, by omega⟩
  obtain ⟨K, rfl⟩ : ∃ K, L = 2 * K := ⟨L / 2, by omega⟩
  have eM : 2 * M / 2 = M := by omega
  have eK : 2 * K / 2 = K := by omega
  have eM' : (2 * M + 1) / 2 = M := by omega
  simp only [eM, eK] at *
  have hg : Sphere.groupComplex (2 * M) (2 * K) 1 K = (1, own) := by
    simp only [Sphere.groupComplex, eM, eM', own]
    rw [max_eq_right (by omega)]
    split_ifs <;> simp only [Prod.mk.injEq] at * <;> omega
  have hne : own ≠ (K : Int) := by simp only [own]; omega
  have hp : (visits maps 1 K).Perm [own, (K : Int)] := by
    rw [List.perm_ext_iff_of_nodup (visits_nodup _ _ _ _ _ _ _ _ (by simp only [Sphere.shapeComplex, eM]; omega))
      (by simp [hne])]
    intro e
    rw [mem_visits _ _ _ _ _ _ _ _ (by simp only [Sphere.shapeComplex, eM]; omega)]
    simp only [List.mem_cons, List.not_mem_nil, or_false, InHull, deg, Nat.zero_add, Sphere.shapeComplex, eM]
    constructor
    · rintro ⟨p, q, hp, hq, h1, h5, h6, h7⟩
      simp only [Sphere.groupComplex, eM, eM'] at h6 h7
      simp only [own]
      rw [max_eq_right (by omega)] at h6 h7
      split_ifs at h6 h7 <;> simp only at * <;> omega
    · rintro (rfl | rfl)
      · exact ⟨1, 1, by omega, by omega, le_rfl, le_rfl, by rw [hg], by rw [hg]⟩
      · refine ⟨0, M - 1, by omega, by omega, by omega, by omega, ?_, ?_⟩ <;>
        · simp only [Sphere.groupComplex, eM, eM']
          rw [max_eq_right (by omega)]
          split_ifs <;> simp only at * <;> omega
  refine ⟨hg, hne, hp, ?_⟩
  intro V _ A x
  rw [operate_eq, (hp.map _).sum_eq]
  simp

/-- C84 is false with real dtype on one process, whenever `Lmax` is even and `Lmax/2 + 3 ≤ Nphi/2 ≤ Lmax + 1` (for
example `Nphi = 12`, `Ntheta = 8`): the same for the cosine and sine parts of order 1, at rows 2 and 3 and column
`Lmax/2`. -/
theorem degree_maps_real_refuted (Nphi L r : Nat) (hN : Nphi % 4 = 0) (hL : L % 2 = 0) (h3 : L / 2 + 3 ≤ Nphi / 2)
    (h4 : Nphi / 2 ≤ L + 1) (hr : r = 2 ∨ r = 3) :
    let maps := ellMaps (Sphere.groupReal Nphi L) 2 0 0 (Sphere.shapeReal Nphi L).1 (Sphere.shapeReal Nphi L).2
    let own : Int := (Nphi / 2 : Nat) - (L / 2 : Nat) - 2
    Sphere.groupReal Nphi L r (L / 2) = (1, own) ∧ own ≠ (L / 2 : Nat) ∧
      (visits maps r (L / 2)).Perm [own, (L / 2 : Nat)] ∧
      ∀ {V : Type} [AddCommMonoid V] (A : Int → V → V) (x : Nat → Nat → V),
        operate maps A x r (L / 2) = A own (x r (L / 2)) + A (L / 2 : Nat) (x r (L / 2)) := by
  intro maps own
  obtain ⟨Q, rfl⟩ : ∃ Q, Nphi = 4 * Q := ⟨Nphi / 4, by omega⟩
  obtain ⟨K, rfl⟩ : ∃ K, L = 2 * K := ⟨L / 2, by omega⟩
  have eM : 4 * Q / 2 = 2 * Q := by omega
  have eK : 2 * K / 2 = K := by omega
  simp only [eM, eK] at *
  have hg : Sphere.groupReal (4 * Q) (2 * K) r K = (1, own) := by
    simp only [Sphere.groupReal, eM, own]
    rw [max_eq_right (by omega)]
    split_ifs <;> simp only [Prod.mk.injEq] at * <;> omega
  have hne : own ≠ (K : Int) := by simp only [own]; omega
  have hp : (visits maps r K).Perm [own, (K : Int)] := by
    rw [List.perm_ext_iff_of_nodup (visits_nodup _ _ _ _ _ _ _ _ (by simp only [Sphere.shapeReal, eM]; omega))
      (by simp [hne])]
    intro e
    rw [mem_visits _ _ _ _ _ _ _ _ (by simp only [Sphere.shapeReal, eM]; omega)]
    simp only [List.mem_cons, List.not_mem_nil, or_false, InHull, deg, Nat.zero_add, Sphere.shapeReal, eM]
    constructor
    · rintro ⟨p, q, hp, hq, h1, h5, h6, h7⟩
      simp only [Sphere.groupReal, eM] at h6 h7
      simp only [own]
      rw [max_eq_right (by omega)] at h6 h7
      split_ifs at h6 h7 <;> simp only at * <;> omega
    · rintro (rfl | rfl)
      · exact ⟨r, r, by omega, by omega, le_rfl, le_rfl, by rw [hg], by rw [hg]⟩
      · refine ⟨0, 2 * Q - 1, by omega, by omega, by omega, by omega, ?_, ?_⟩ <;>
        · simp only [Sphere.groupReal, eM]
          rw [max_eq_right (by omega)]
          split_ifs <;> simp only at * <;> omega
  refine ⟨hg, hne, hp, ?_⟩
  intro V _ A x
  rw [operate_eq, (hp.map _).sum_eq]
  simp

/-- The smallest case, `shape = (8, 5)` with complex dtype: the coefficient `m = 1`, `ell = 1` is visited with degree 1 and then
with degree 2, so the ball's radial transform leaves the result for degree 2. -/
theorem degree_maps_order_refuted {V W : Type*} (B : Int → V → W) (x : Nat → Nat → V) (y : Nat → Nat → W) :
    let maps := ellMaps (Sphere.groupComplex 8 4) 1 0 0 4 6
    Sphere.groupComplex 8 4 1 2 = (1, 1) ∧ visits maps 1 2 = [1, 2] ∧ assign maps B x y 1 2 = B 2 (x 1 2) := by
  have h : visits (ellMaps (Sphere.groupComplex 8 4) 1 0 0 4 6) 1 2 = [1, 2] := by decide +kernel
  refine ⟨by decide, h, ?_⟩
  rw [assign_eq, h]
  rfl

example : (8 : Nat) % 2 = 0 ∧ 4 % 2 = 0 ∧ 4 / 2 + 2 ≤ 8 / 2 ∧ 8 / 2 ≤ 4 := by decide
example : (12 : Nat) % 4 = 0 ∧ 6 % 2 = 0 ∧ 6 / 2 + 3 ≤ 12 / 2 ∧ 12 / 2 ≤ 6 + 1 := by decide

end Dedalus.Maps
