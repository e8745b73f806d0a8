import Verif.Jacobi.Recursion

namespace Dedalus.Jacobi

open Spec

/-- upper triangular of bandwidth `w`, with entries that do not depend on the size -/
structure UpperAt (op : Op) (w : Nat) (a b : ℝ) : Prop where
  rows : ∀ n, op.rows n = n
  low : ∀ n i j, j < n → j < i → op.entry n a b i j = 0
  far : ∀ n i j, j < n → i + w < j → op.entry n a b i j = 0
  size : ∀ n m i j, j < n → j < m → op.entry n a b i j = op.entry m a b i j
  pos : ∀ n j, j < n → 0 < op.entry n a b j j

theorem UpperAt.comp {L R : Op} {w v : Nat} {a b : ℝ} (hL : UpperAt L w (a + R.da) (b + R.db)) (hR : UpperAt R v a b) :
    UpperAt (L.comp R) (w + v) a b where
  rows n := by simp only [Op.comp, hR.rows, hL.rows]
  low n i j hj h := by
    simp only [Op.comp, hR.rows]
    apply Finset.sum_eq_zero
    intro l hl
    rcases Nat.lt_or_ge j l with h' | h'
    · rw [hR.low n l j hj h', mul_zero]
    · rw [hL.low n i l (Finset.mem_range.1 hl) (by omega), zero_mul]
  far n i j hj h := by
    simp only [Op.comp, hR.rows]
    apply Finset.sum_eq_zero
    intro l hl
    rcases Nat.lt_or_ge (l + v) j with h' | h'
    · rw [hR.far n l j hj h', mul_zero]
    · rw [hL.far n i l (Finset.mem_range.1 hl) (by omega), zero_mul]
  size n m i j hn hm := by
    simp only [Op.comp, hR.rows]
    have : ∀ N, j < N → ∑ l ∈ Finset.range N, L.entry N (a + R.da) (b + R.db) i l * R.entry N a b l j =
        ∑ l ∈ Finset.range (j + 1), L.entry (j + 1) (a + R.da) (b + R.db) i l * R.entry (j + 1) a b l j := by
      intro N hN
      symm
      have e : ∀ l ∈ Finset.range (j + 1), L.entry (j + 1) (a + R.da) (b + R.db) i l * R.entry (j + 1) a b l j =
          L.entry N (a + R.da) (b + R.db) i l * R.entry N a b l j := by
        intro l hl
        have hl' := Finset.mem_range.1 hl
        rw [hL.size (j + 1) N i l hl' (by omega), hR.size (j + 1) N l j (by omega) hN]
      rw [Finset.sum_congr rfl e]
      apply Finset.sum_subset
      · intro x hx; simp at *; omega
      · intro x _ hx
        simp at hx
        rw [hR.low N x j hN (by omega), mul_zero]
    rw [this n hn, this m hm]
  pos n j hj := by
    simp only [Op.comp, hR.rows]
    rw [sum_one n j hj _ fun l hl => by
      rcases Nat.lt_or_ge j l with h' | h'
      · rw [hR.low n l j hj h', mul_zero]
      · rw [hL.low n j l (by omega) (by omega), zero_mul]]
    exact mul_pos (hL.pos n j hj) (hR.pos n j hj)

theorem UpperAt.one (a b : ℝ) : UpperAt Op.one 0 a b where
  rows n := rfl
  low n i j _ h := by simp only [Op.one]; rw [if_neg (by omega)]
  far n i j _ h := by simp only [Op.one]; rw [if_neg (by omega)]
  size _ _ _ _ _ _ := rfl
  pos n j _ := by simp [Op.one]

theorem upper_Ap (a b : ℝ) (ha : -1 < a) (hb : -1 < b) : UpperAt opAp 1 a b where
  rows n := rfl
  low n i j _ h := opAp_zero _ _ _ _ _ (by omega) (by omega)
  far n i j _ h := opAp_zero _ _ _ _ _ (by omega) (by omega)
  size _ _ _ _ _ _ := rfl
  pos n j _ := by
    rw [opAp_diag _ _ _ _ ha hb]
    exact mul_pos (scaleBand_pos a b j ha hb) (div_pos (sq_pos _ _ _ (by linarith) hb) (sq_pos _ _ _ ha hb))

theorem upper_Bp (a b : ℝ) (ha : -1 < a) (hb : -1 < b) : UpperAt opBp 1 a b where
  rows n := rfl
  low n i j _ h := opBp_zero _ _ _ _ _ (by omega) (by omega)
  far n i j _ h := opBp_zero _ _ _ _ _ (by omega) (by omega)
  size _ _ _ _ _ _ := rfl
  pos n j _ := by
    rw [opBp_diag _ _ _ _ ha hb]
    exact mul_pos (scaleBand_pos a b j ha hb) (div_pos (sq_pos _ _ _ ha (by linarith)) (sq_pos _ _ _ ha hb))

theorem upper_pow (L : Op) (a b : ℝ) (h : ∀ k : Nat, UpperAt L 1 (a + k * L.da) (b + k * L.db)) (k : Nat) :
    UpperAt (L.pow k) k a b := by
  induction k with
  | zero => exact UpperAt.one a b
  | succ k ih =>
    have hs := pow_shift L k
    have := UpperAt.comp (L := L) (R := L.pow k) (a := a) (b := b) (by rw [hs.1, hs.2]; exact h k) ih
    rw [add_comm 1 k] at this
    exact this

theorem upper_conversion (a b : ℝ) (ha : -1 < a) (hb : -1 < b) (da db : Nat) :
    UpperAt ((opAp.pow da).comp (opBp.pow db)) (da + db) a b := by
  have hB : UpperAt (opBp.pow db) db a b := by
    apply upper_pow
    intro k
    have : (0 : ℝ) ≤ k := Nat.cast_nonneg k
    apply upper_Bp
    · change -1 < a + k * 0; linarith
    · change -1 < b + k * 1; linarith
  have sB := pow_shift opBp db
  have e1 : (opBp.pow db).da = 0 := by rw [sB.1]; change (db : ℝ) * 0 = 0; ring
  have e2 : (opBp.pow db).db = db := by rw [sB.2]; change (db : ℝ) * 1 = db; ring
  have hd : (0 : ℝ) ≤ db := Nat.cast_nonneg db
  have hA : UpperAt (opAp.pow da) da (a + (opBp.pow db).da) (b + (opBp.pow db).db) := by
    rw [e1, e2]
    apply upper_pow
    intro k
    have : (0 : ℝ) ≤ k := Nat.cast_nonneg k
    apply upper_Ap
    · change -1 < a + 0 + k * 1; linarith
    · change -1 < b + db + k * 0; linarith
  exact UpperAt.comp hA hB

theorem conversion_low (N : Nat) (a b : ℝ) (da db i j : Nat) (ha : -1 < a) (hb : -1 < b) (hj : j < N) (h : j < i) :
    conversion N a b da db i j = 0 := (upper_conversion a b ha hb da db).low N i j hj h

theorem conversion_far (N : Nat) (a b : ℝ) (da db i j : Nat) (ha : -1 < a) (hb : -1 < b) (hj : j < N) (h : i + (da + db) < j) :
    conversion N a b da db i j = 0 := (upper_conversion a b ha hb da db).far N i j hj h

theorem conversion_size (N M : Nat) (a b : ℝ) (da db i j : Nat) (ha : -1 < a) (hb : -1 < b) (hn : j < N) (hm : j < M) :
    conversion N a b da db i j = conversion M a b da db i j := (upper_conversion a b ha hb da db).size N M i j hn hm

theorem conversion_pos (N : Nat) (a b : ℝ) (da db j : Nat) (ha : -1 < a) (hb : -1 < b) (hj : j < N) :
    0 < conversion N a b da db j j := (upper_conversion a b ha hb da db).pos N j hj

theorem conversionMatrix_some (N : Nat) (a b : ℝ) (da db : Nat) :
    conversionMatrix N a b (a + da) (b + db) = some (conversion N a b da db) := by
  have h1 : a + (da : ℝ) - a = da := by ring
  have h2 : b + (db : ℝ) - b = db := by ring
  have hd : (0 : ℝ) ≤ da := Nat.cast_nonneg da
  have he : (0 : ℝ) ≤ db := Nat.cast_nonneg db
  unfold conversionMatrix
  rw [h1, h2]
  simp only [Int.floor_natCast, Int.cast_natCast, ne_eq, not_true_eq_false, if_false, Int.toNat_natCast]
  rw [if_neg (by linarith), if_neg (by linarith)]

/-- every conversion that does not raise raises the parameters by natural numbers -/
theorem conversionMatrix_cases (N : Nat) (a0 b0 a1 b1 : ℝ) (C : Nat → Nat → ℝ) (h : conversionMatrix N a0 b0 a1 b1 = some C) :
    ∃ da db : Nat, a1 = a0 + da ∧ b1 = b0 + db ∧ C = conversion N a0 b0 da db := by
  unfold conversionMatrix at h
  by_cases h1 : (⌊a1 - a0⌋ : ℝ) ≠ a1 - a0
  · rw [if_pos h1] at h; cases h
  rw [if_neg h1] at h
  by_cases h2 : (⌊b1 - b0⌋ : ℝ) ≠ b1 - b0
  · rw [if_pos h2] at h; cases h
  rw [if_neg h2] at h
  by_cases h3 : a0 > a1
  · rw [if_pos h3] at h; cases h
  rw [if_neg h3] at h
  by_cases h4 : b0 > b1
  · rw [if_pos h4] at h; cases h
  rw [if_neg h4] at h
  cases h
  have p1 : 0 ≤ ⌊a1 - a0⌋ := Int.floor_nonneg.2 (by linarith)
  have p2 : 0 ≤ ⌊b1 - b0⌋ := Int.floor_nonneg.2 (by linarith)
  have q1 : ((⌊a1 - a0⌋.toNat : Nat) : ℝ) = a1 - a0 := by
    refine Eq.trans ?_ (not_not.1 h1)
    exact_mod_cast Int.toNat_of_nonneg p1
  have q2 : ((⌊b1 - b0⌋.toNat : Nat) : ℝ) = b1 - b0 := by
    refine Eq.trans ?_ (not_not.1 h2)
    exact_mod_cast Int.toNat_of_nonneg p2
  exact ⟨⌊a1 - a0⌋.toNat, ⌊b1 - b0⌋.toNat, by rw [q1]; ring, by rw [q2]; ring, rfl⟩

/-- back substitution -/
theorem upper_solvable (C : Nat → Nat → ℝ) (M : Nat) (low : ∀ i j, j < i → i < M → C i j = 0) (pos : ∀ j, j < M → C j j ≠ 0) (c : Nat → ℝ) :
    ∃ d : Nat → ℝ, ∀ i, i < M → ∑ j ∈ Finset.range M, C i j * d j = c i := by
  induction M generalizing c with
  | zero => exact ⟨fun _ => 0, fun i h => absurd h (by omega)⟩
  | succ M ih =>
    obtain ⟨d, hd⟩ := ih (fun i j h1 h2 => low i j h1 (by omega)) (fun j h => pos j (by omega))
      (fun i => c i - C i M * (c M / C M M))
    refine ⟨fun j => if j = M then c M / C M M else d j, fun i hi => ?_⟩
    rw [Finset.sum_range_succ]
    simp only [if_true]
    have e : ∑ j ∈ Finset.range M, C i j * (if j = M then c M / C M M else d j) = ∑ j ∈ Finset.range M, C i j * d j := by
      apply Finset.sum_congr rfl
      intro j hj
      rw [if_neg (by have := Finset.mem_range.1 hj; omega)]
    rw [e]
    rcases Nat.lt_or_ge i M with h | h
    · rw [hd i h]; ring
    · have : i = M := by omega
      subst this
      rw [Finset.sum_eq_zero fun j hj => by rw [low i j (Finset.mem_range.1 hj) (by omega), zero_mul]]
      have := pos i (by omega)
      field_simp
      ring

end Dedalus.Jacobi
