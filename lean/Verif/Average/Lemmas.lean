import Verif.Average.Spec
import Verif.Orders.Spec
import Verif.Orders.Lemmas
import Verif.Fourier.Calculus

namespace Dedalus.Average
open Orders Orders.Spec Dist

/-! ## Order zero -/

theorem orderZero_iff (d : Dtype) (Nphi Ntheta : Nat) (h : Allowed d Nphi Ntheta) (i j : Nat)
    (hi : i < (sphereShape d Nphi (lmaxOf d Ntheta)).1) (hj : j < (sphereShape d Nphi (lmaxOf d Ntheta)).2) :
    ∃ m l, sphereGroup d Nphi (lmaxOf d Ntheta) i j = some (m, l) ∧ (m = 0 ↔ i < d.parts ∧ j ≤ lmaxOf d Ntheta) ∧
      (m = 0 → l = (j : Int)) := by
  obtain ⟨hN, h⟩ := h
  generalize hL : lmaxOf d Ntheta = L at *
  refine ⟨_, _, rfl, ?_⟩
  cases d with
  | real =>
    simp only [Dtype.parts, lmaxOf] at *
    rcases h with rfl | ⟨h0, ⟨Q, rfl⟩, h2⟩
    · have : sphereShape .real 1 L = (2, L + 1) := rfl
      rw [this] at hi hj
      simp only at hi hj
      simp only [Sphere.groupReal]
      rw [if_neg (by omega), if_pos hi]
      simp only [true_iff]
      exact ⟨by omega, fun _ => trivial⟩
    · have : sphereShape .real (2 * 2 * Q) L = Sphere.shapeReal (2 * 2 * Q) L := by
        unfold sphereShape; rw [if_pos (by unfold mmax; omega)]
      rw [this] at hi hj
      simp only [Sphere.shapeReal] at hi hj
      simp only [Sphere.groupReal]
      rw [show 2 * 2 * Q / 2 = 2 * Q by omega] at *
      by_cases hs : (L : Int) + 2 - (2 * Q : Nat) ≤ 0
      · rw [max_eq_left hs]
        split_ifs <;> constructor <;> omega
      · rw [max_eq_right (by omega)]
        split_ifs <;> constructor <;> omega
  | complex =>
    simp only [Dtype.parts, lmaxOf] at *
    have hz : mmax Nphi = 0 → _ := fun hm => show ((Sphere.groupComplex Nphi L i j).1 = 0 ↔ i < 1 ∧ j ≤ L) ∧
        ((Sphere.groupComplex Nphi L i j).1 = 0 → (Sphere.groupComplex Nphi L i j).2 = (j : Int)) by
      have : sphereShape .complex Nphi L = (1, L + 1) := by unfold sphereShape; rw [if_neg (by omega)]; rfl
      rw [this] at hi hj
      simp only at hi hj
      simp only [Sphere.groupComplex]
      rw [if_neg (by omega), if_pos (by omega)]
      simp only [true_iff]
      exact ⟨by omega, fun _ => trivial⟩
    rcases h with rfl | ⟨h0, ⟨M, rfl⟩, h2⟩
    · exact hz rfl
    · by_cases hM : M = 1
      · subst hM; exact hz rfl
      · have : sphereShape .complex (2 * 1 * M) L = Sphere.shapeComplex (2 * 1 * M) L := by
          unfold sphereShape; rw [if_pos (by unfold mmax; omega)]
        rw [this] at hi hj
        simp only [Sphere.shapeComplex] at hi hj
        simp only [Sphere.groupComplex]
        rw [show 2 * 1 * M / 2 = M by omega] at *
        rw [show (2 * 1 * M + 1) / 2 = M by omega] at *
        by_cases hs : (L : Int) + 1 - M ≤ 0
        · rw [max_eq_left hs]
          split_ifs <;> constructor <;> omega
        · rw [max_eq_right (by omega)]
          split_ifs <;> constructor <;> omega

theorem parts_pos (d : Dtype) : 0 < d.parts := by cases d <;> decide

/-- The rows are whole groups. -/
theorem shape_rows (d : Dtype) (Nphi Ntheta : Nat) (h : Allowed d Nphi Ntheta) :
    ∃ C, 0 < C ∧ (sphereShape d Nphi (lmaxOf d Ntheta)).1 = d.parts * C := by
  obtain ⟨hN, h⟩ := h
  unfold sphereShape
  split
  · rename_i hm
    unfold mmax at hm
    cases d with
    | real =>
      simp only [Dtype.parts] at *
      rcases h with rfl | ⟨h0, ⟨Q, rfl⟩, h2⟩
      · omega
      · exact ⟨Q, by omega, by simp only [Sphere.shapeReal]; omega⟩
    | complex =>
      simp only [Dtype.parts] at *
      rcases h with rfl | ⟨h0, ⟨M, rfl⟩, h2⟩
      · omega
      · exact ⟨M, by omega, by simp only [Sphere.shapeComplex]; omega⟩
  · exact ⟨1, by omega, by simp⟩

theorem shape_cols (d : Dtype) (Nphi L : Nat) : L + 1 ≤ (sphereShape d Nphi L).2 := by
  unfold sphereShape
  split
  · cases d <;> simp [Sphere.shapeReal, Sphere.shapeComplex]
  · simp

theorem shape_one (d : Dtype) (L : Nat) : sphereShape d 1 L = (d.parts, L + 1) := by
  unfold sphereShape; rw [if_neg (by decide)]

theorem allowed_one (d : Dtype) {Nphi Ntheta : Nat} (h : Allowed d Nphi Ntheta) : Allowed d 1 Ntheta := ⟨h.1, Or.inl rfl⟩

/-! ## Local rows and columns -/

theorem rows_shape (d : Dtype) (Nphi Ntheta P p : Nat) (h : Allowed d Nphi Ntheta) :
    ∃ C, 0 < C ∧ (sphereShape d Nphi (lmaxOf d Ntheta)).1 = d.parts * C ∧
      sphereRows d Nphi (lmaxOf d Ntheta) P p = List.range' (d.parts * lo P C p) (d.parts * (hi P C p - lo P C p)) := by
  obtain ⟨C, hC, e⟩ := shape_rows d Nphi Ntheta h
  refine ⟨C, hC, e, ?_⟩
  unfold sphereRows
  rw [e, rows_eq P d.parts C p (parts_pos d)]

theorem rows_one (d : Dtype) (L P p : Nat) :
    sphereRows d 1 L P p = List.range' (d.parts * lo P 1 p) (d.parts * (hi P 1 p - lo P 1 p)) := by
  have := rows_eq P d.parts 1 p (parts_pos d)
  rw [Nat.mul_one] at this
  unfold sphereRows
  rw [shape_one, this]

theorem cols_eq (d : Dtype) (Nphi L P p : Nat) :
    sphereCols d Nphi L P p = List.range' (lo P (sphereShape d Nphi L).2 p)
      (hi P (sphereShape d Nphi L).2 p - lo P (sphereShape d Nphi L).2 p) := by
  have := rows_eq P 1 (sphereShape d Nphi L).2 p (by omega)
  simp only [Nat.one_mul] at this
  exact this

theorem ceilDiv_pos {n P : Nat} (hn : 0 < n) (hP : 0 < P) : 0 < ceilDiv n P := by
  unfold ceilDiv
  exact Nat.div_pos (by omega) hP

theorem lo_hi_zero {P C : Nat} (hP : 0 < P) (hC : 0 < C) : lo P C 0 = 0 ∧ 0 < hi P C 0 := by
  have := ceilDiv_pos hC hP
  unfold lo hi
  constructor
  · split <;> simp
  · split
    · exact hC
    · simp only [Nat.zero_add, Nat.mul_one]; omega

theorem lo_pos {P C p : Nat} (hP : 0 < P) (hC : 0 < C) (hP1 : P ≠ 1) (hp : p ≠ 0) : 0 < lo P C p := by
  have := ceilDiv_pos hC hP
  unfold lo
  rw [if_neg hP1]
  have : 0 < ceilDiv C P * p := Nat.mul_pos this (by omega)
  omega

theorem filter_range' (a n k : Nat) : (List.range' a n).filter (fun i => decide (i < k)) = List.range' a (min (a + n) k - a) := by
  induction n generalizing a with
  | zero => simp
  | succ n ih =>
    rw [List.range'_succ, List.filter_cons, ih]
    by_cases h : a < k
    · rw [if_pos (by simpa using h), show min (a + (n + 1)) k - a = (min (a + 1 + n) k - (a + 1)) + 1 by omega, List.range'_succ]
    · rw [if_neg (by simpa using h), show min (a + (n + 1)) k - a = 0 by omega, show min (a + 1 + n) k - (a + 1) = 0 by omega]
      simp

theorem range'_empty (a b : Nat) : List.range' a 0 = List.range' b 0 := by simp

/-- The rows of order zero are those of the output. -/
theorem rows_filter (d : Dtype) (Nphi Ntheta P p : Nat) (hP : 0 < P) (hp : p < P) (h : Allowed d Nphi Ntheta) :
    (sphereRows d Nphi (lmaxOf d Ntheta) P p).filter (fun i => decide (i < d.parts)) = sphereRows d 1 (lmaxOf d Ntheta) P p := by
  obtain ⟨C, hC, -, e⟩ := rows_shape d Nphi Ntheta P p h
  have hb := parts_pos d
  rw [e, rows_one, filter_range']
  by_cases hp0 : p = 0
  · subst hp0
    obtain ⟨h1, h2⟩ := lo_hi_zero hP hC
    obtain ⟨h3, h4⟩ := lo_hi_zero (C := 1) hP (by omega)
    have h5 := hi_le P 1 0
    rw [h1, h3, show hi P 1 0 = 1 by omega]
    have : d.parts * 1 ≤ d.parts * hi P C 0 := Nat.mul_le_mul_left _ h2
    simp only [Nat.mul_zero, Nat.zero_add, Nat.sub_zero, Nat.mul_one] at *
    rw [Nat.min_eq_right this]
  · have h1 := lo_pos hP hC (by omega) hp0
    have h2 := lo_pos (C := 1) hP (by omega) (by omega) hp0
    have h3 := hi_le P 1 p
    have : d.parts * 1 ≤ d.parts * lo P C p := Nat.mul_le_mul_left _ h1
    rw [show hi P 1 p - lo P 1 p = 0 by omega, Nat.mul_zero,
      show min (d.parts * lo P C p + d.parts * (hi P C p - lo P C p)) d.parts - d.parts * lo P C p = 0 by omega]
    exact range'_empty _ _

/-- The columns of order zero are those of the output if the blocks have the same size. -/
theorem cols_filter (d : Dtype) (Nphi L P p : Nat) (h : P = 1 ∨ ceilDiv (sphereShape d Nphi L).2 P = ceilDiv (L + 1) P) :
    (sphereCols d Nphi L P p).filter (fun j => decide (j < L + 1)) = sphereCols d 1 L P p := by
  have hW := shape_cols d Nphi L
  rw [cols_eq, cols_eq, filter_range', shape_one]
  generalize (sphereShape d Nphi L).2 = W at *
  simp only
  unfold lo hi
  by_cases hP : P = 1
  · simp only [hP, if_true]
    rw [show min (0 + (W - 0)) (L + 1) - 0 = L + 1 - 0 by omega]
  · rw [if_neg hP, if_neg hP, if_neg hP, if_neg hP, h.resolve_left hP]
    have hle : ceilDiv (L + 1) P * p ≤ ceilDiv (L + 1) P * (p + 1) := Nat.mul_le_mul_left _ (by omega)
    generalize ceilDiv (L + 1) P * p = x at *
    generalize ceilDiv (L + 1) P * (p + 1) = y at *
    by_cases hx : x < L + 1
    · rw [Nat.min_eq_right (by omega : x ≤ W), Nat.min_eq_right (by omega : x ≤ L + 1),
        show min (x + (min W y - x)) (L + 1) - x = min (L + 1) y - x by omega]
    · rw [show min (min W x + (min W y - min W x)) (L + 1) - min W x = 0 by omega, show min (L + 1) y - min (L + 1) x = 0 by omega]
      exact range'_empty _ _

/-! ## Cells -/

theorem cells_filter (I J : List Nat) (N : Nat) (b w : Nat) (low : Int → Nat) (mask : Nat → Nat → Nat → Bool)
    (h : ∀ i j n, i ∈ I → j ∈ J → (mask i j n = true ↔ (i < b ∧ j < w) ∧ low j ≤ n)) :
    cells I J N mask = cells (I.filter fun i => decide (i < b)) (J.filter fun j => decide (j < w)) N (fun _ j n => decide (low j ≤ n)) := by
  unfold cells
  induction I with
  | nil => rfl
  | cons i I ih =>
    have ih' := ih fun i j n hi hj => h i j n (List.mem_cons_of_mem _ hi) hj
    rw [List.flatMap_cons, ih', List.filter_cons]
    have hi : ∀ j n, j ∈ J → (mask i j n = true ↔ (i < b ∧ j < w) ∧ low j ≤ n) := fun j n hj => h i j n (by simp) hj
    clear ih ih' h
    by_cases hb : i < b
    · rw [if_pos (by simpa using hb), List.flatMap_cons]
      congr 1
      induction J with
      | nil => rfl
      | cons j J ihJ =>
        have ihJ := ihJ fun j n hj => hi j n (List.mem_cons_of_mem _ hj)
        rw [List.flatMap_cons, ihJ, List.filter_cons]
        have hj := fun n => hi j n (by simp)
        by_cases hw : j < w
        · rw [if_pos (by simpa using hw), List.flatMap_cons]
          congr 2
          refine List.filter_congr fun n _ => ?_
          rw [Bool.eq_iff_iff, hj n]
          simp [hb, hw]
        · rw [if_neg (by simpa using hw), List.filter_eq_nil_iff.2, List.map_nil, List.nil_append]
          intro n _
          rw [hj n]
          exact fun h => hw h.1.2
    · rw [if_neg (by simpa using hb)]
      have : (List.flatMap (fun j => List.map (fun n => (i, j, n)) (List.filter (mask i j) (List.range N))) J) = [] := by
        rw [List.flatMap_eq_nil_iff]
        intro j hj
        rw [List.map_eq_nil_iff, List.filter_eq_nil_iff]
        intro n _
        rw [hi j n hj]
        exact fun h => hb h.1.1
      rw [this, List.nil_append]

theorem mem_cells (I J : List Nat) (N : Nat) (mask : Nat → Nat → Nat → Bool) (k : Cell) :
    k ∈ cells I J N mask ↔ k.1 ∈ I ∧ k.2.1 ∈ J ∧ k.2.2 < N ∧ mask k.1 k.2.1 k.2.2 = true := by
  obtain ⟨i, j, n⟩ := k
  unfold cells
  simp only [List.mem_flatMap, List.mem_map, List.mem_filter, List.mem_range, Prod.mk.injEq]
  constructor
  · rintro ⟨i', hi, j', hj, n', ⟨h1, h2⟩, rfl, rfl, rfl⟩
    exact ⟨hi, hj, h1, h2⟩
  · rintro ⟨hi, hj, h1, h2⟩
    exact ⟨i, hi, j, hj, n, ⟨h1, h2⟩, rfl, rfl, rfl⟩

/-- Assigning the entries of the same cells copies them. -/
theorem maskAssign_same {κ V : Type} [DecidableEq κ] (ks : List κ) (x out : κ → V) :
    ∃ o, maskAssign ks (ks.map x) out = some o ∧ ∀ k, o k = if k ∈ ks then x k else out k := by
  unfold maskAssign
  rw [if_pos (by simp)]
  refine ⟨_, rfl, fun k => ?_⟩
  have : (ks.zip (ks.map x)).find? (fun e => decide (e.1 = k)) = if k ∈ ks then some (k, x k) else none := by
    induction ks with
    | nil => simp
    | cons a l ih =>
      rw [List.map_cons, List.zip_cons_cons, List.find?_cons]
      by_cases h : a = k
      · subst h; simp
      · simp only [decide_eq_false h]
        rw [ih]
        have : ¬k = a := fun e => h e.symm
        simp [this]
  rw [this]
  split_ifs <;> rfl

/-- Rows of the process are rows of the array. -/
theorem mem_rows (d : Dtype) (Nphi Ntheta P p i : Nat) (h : Allowed d Nphi Ntheta) (hi' : i ∈ sphereRows d Nphi (lmaxOf d Ntheta) P p) :
    i < (sphereShape d Nphi (lmaxOf d Ntheta)).1 := by
  obtain ⟨C, hC, e1, e2⟩ := rows_shape d Nphi Ntheta P p h
  rw [e2, List.mem_range'_1] at hi'
  rw [e1]
  have h1 := hi_le P C p
  have h2 : d.parts * lo P C p + d.parts * (hi P C p - lo P C p) ≤ d.parts * C ∨ hi P C p - lo P C p = 0 := by
    by_cases h : lo P C p ≤ hi P C p
    · left
      rw [← Nat.mul_add, Nat.add_sub_cancel' h]
      exact Nat.mul_le_mul_left _ h1
    · right; omega
  rcases h2 with h2 | h2
  · omega
  · rw [h2, Nat.mul_zero] at hi'; omega

theorem mem_cols (d : Dtype) (Nphi L P p j : Nat) (hj : j ∈ sphereCols d Nphi L P p) : j < (sphereShape d Nphi L).2 := by
  rw [cols_eq, List.mem_range'_1] at hj
  have h1 := hi_le P (sphereShape d Nphi L).2 p
  omega

theorem orderZero_mask (d : Dtype) (Nphi Ntheta P0 P1 p0 p1 : Nat) (low : Int → Nat) (h : Allowed d Nphi Ntheta) (i j n : Nat)
    (hi : i ∈ sphereRows d Nphi (lmaxOf d Ntheta) P0 p0) (hj : j ∈ sphereCols d Nphi (lmaxOf d Ntheta) P1 p1) :
    orderZero d Nphi (lmaxOf d Ntheta) low i j n = true ↔ (i < d.parts ∧ j < lmaxOf d Ntheta + 1) ∧ low j ≤ n := by
  obtain ⟨m, l, e, h1, h2⟩ := orderZero_iff d Nphi Ntheta h i j (mem_rows d Nphi Ntheta P0 p0 i h hi) (mem_cols d Nphi _ P1 p1 j hj)
  unfold orderZero
  rw [e]
  simp only [Bool.and_eq_true, decide_eq_true_eq]
  constructor
  · rintro ⟨hm, hl⟩
    rw [h2 hm] at hl
    have := h1.1 hm
    exact ⟨⟨this.1, by omega⟩, hl⟩
  · rintro ⟨⟨a, b⟩, hl⟩
    have hm := h1.2 ⟨a, by omega⟩
    refine ⟨hm, ?_⟩
    rw [h2 hm]
    exact hl

/-! ## Means -/

theorem harmonic_continuous (d : Dtype) (m : Int) (part : Nat) : Continuous (Spec.harmonic d m part) := by
  unfold Spec.harmonic
  cases d with
  | complex => show Continuous (fun φ => Fourier.Spec.mode m φ); unfold Fourier.Spec.mode; fun_prop
  | real =>
    show Continuous (fun φ => ((Fourier.Spec.realMode (2 * m.natAbs + part) φ : ℝ) : ℂ))
    unfold Fourier.Spec.realMode
    by_cases h : (2 * m.natAbs + part) % 2 = 0
    · simp only [if_pos h]; fun_prop
    · simp only [if_neg h]; fun_prop

theorem harmonic_zero (d : Dtype) (part : Nat) (φ ψ : ℝ) : Spec.harmonic d 0 part φ = Spec.harmonic d 0 part ψ ∨ 2 ≤ part := by
  unfold Spec.harmonic
  cases d with
  | complex => left; simp [Fourier.Spec.mode]
  | real =>
    by_cases h : 2 ≤ part
    · right; exact h
    · left
      have : part = 0 ∨ part = 1 := by omega
      rcases this with rfl | rfl <;> simp [Fourier.Spec.realMode]

theorem harmonic_mean (d : Dtype) (m : Int) (part : Nat) (hp : part < d.parts) (ψ : ℝ) :
    (∫ φ in (0 : ℝ)..2 * Real.pi, Spec.harmonic d m part φ) / (2 * Real.pi : ℝ) = if m = 0 then Spec.harmonic d 0 part ψ else 0 := by
  have hne : (0 : ℝ) ≠ 2 * Real.pi := by have := Real.pi_pos; linarith
  have hc : ((2 * Real.pi : ℝ) : ℂ) ≠ 0 := by exact_mod_cast hne.symm
  have hang : ∀ x : ℝ, Fourier.angle 0 (2 * Real.pi) x = x := by
    intro x
    unfold Fourier.angle
    rw [sub_zero, sub_zero]
    field_simp
  by_cases hm : m = 0
  · subst hm
    rw [if_pos rfl]
    have : ∀ φ, Spec.harmonic d 0 part φ = Spec.harmonic d 0 part ψ := fun φ =>
      (harmonic_zero d part φ ψ).resolve_right (by cases d <;> simp [Dtype.parts] at hp <;> omega)
    simp only [this, intervalIntegral.integral_const, sub_zero]
    rw [Complex.real_smul, mul_div_cancel_left₀ _ hc]
  · rw [if_neg hm]
    unfold Spec.harmonic
    cases d with
    | complex =>
      have := Fourier.mode_integral 0 (2 * Real.pi) hne m
      simp only [hang, if_neg hm] at this
      simp only [this, zero_div]
    | real =>
      simp only
      rw [intervalIntegral.integral_ofReal]
      have h0 : m.natAbs ≠ 0 := by omega
      have hp : part = 0 ∨ part = 1 := by simp [Dtype.parts] at hp; omega
      have : ∫ x in (0 : ℝ)..2 * Real.pi, Fourier.Spec.realMode (2 * m.natAbs + part) x = 0 := by
        unfold Fourier.Spec.realMode
        rcases hp with rfl | rfl
        · simp only [show (2 * m.natAbs + 0) % 2 = 0 by omega, if_true, show (2 * m.natAbs + 0) / 2 = m.natAbs by omega]
          have := Fourier.cos_integral 0 (2 * Real.pi) hne m.natAbs
          simp only [hang, if_neg h0] at this
          exact this
        · simp only [show (2 * m.natAbs + 1) % 2 = 1 by omega, one_ne_zero, if_false, show (2 * m.natAbs + 1) / 2 = m.natAbs by omega]
          have := Fourier.sin_integral 0 (2 * Real.pi) hne m.natAbs
          simp only [hang] at this
          rw [intervalIntegral.integral_neg, this, neg_zero]
      rw [this]
      simp

end Dedalus.Average
