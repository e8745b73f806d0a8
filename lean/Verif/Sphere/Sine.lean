import Verif.Sphere.Integrals

namespace Dedalus.Sphere

open Jacobi Jacobi.Spec Spec

/-! ### Multiplication by the sine -/

theorem rep_opA (a a' : Nat) (b : ℝ) (hb : -1 < b) (p : Int) (h : (p = 1 ∧ a' = a + 1) ∨ (p = -1 ∧ a = a' + 1)) :
    RepAt (opA p) (fun z => if p = 1 then 1 else 1 - z) a b ∧ (a : ℝ) + (opA p).da = a' ∧ (opA p).db = 0 ∧
      ∀ n, (opA p).rows n = n + (if p = 1 then 0 else 1) := by
  have ha : (-1 : ℝ) < a := by have : (0 : ℝ) ≤ a := Nat.cast_nonneg a; linarith
  have ha' : (-1 : ℝ) < a' := by have : (0 : ℝ) ≤ a' := Nat.cast_nonneg a'; linarith
  rcases h with ⟨rfl, rfl⟩ | ⟨rfl, rfl⟩
  · refine ⟨?_, ?_, ?_, ?_⟩
    · simp only [if_pos, opA]; exact rep_Ap a b ha hb
    · simp only [opA, if_pos]; push_cast; rfl
    · simp only [opA, if_pos]; rfl
    · intro n; simp only [opA, if_pos]; rfl
  · have e : ((-1 : Int) = 1) = False := by simp
    refine ⟨?_, ?_, ?_, ?_⟩
    · simp only [opA, e, if_false]; push_cast; exact rep_Am a' b ha' hb
    · simp only [opA, e, if_false]; push_cast; change (a' : ℝ) + 1 + (-1) = a'; ring
    · simp only [opA, e, if_false]; rfl
    · intro n; simp only [opA, e, if_false]; rfl

theorem rep_opB (b b' : Nat) (a : ℝ) (ha : -1 < a) (p : Int) (h : (p = 1 ∧ b' = b + 1) ∨ (p = -1 ∧ b = b' + 1)) :
    RepAt (opB p) (fun z => if p = 1 then 1 else 1 + z) a b ∧ (b : ℝ) + (opB p).db = b' ∧ (opB p).da = 0 ∧
      ∀ n, (opB p).rows n = n + (if p = 1 then 0 else 1) := by
  have hb : (-1 : ℝ) < b := by have : (0 : ℝ) ≤ b := Nat.cast_nonneg b; linarith
  have hb' : (-1 : ℝ) < b' := by have : (0 : ℝ) ≤ b' := Nat.cast_nonneg b'; linarith
  rcases h with ⟨rfl, rfl⟩ | ⟨rfl, rfl⟩
  · refine ⟨?_, ?_, ?_, ?_⟩
    · simp only [if_pos, opB]; exact rep_Bp a b ha hb
    · simp only [opB, if_pos]; push_cast; rfl
    · simp only [opB, if_pos]; rfl
    · intro n; simp only [opB, if_pos]; rfl
  · have e : ((-1 : Int) = 1) = False := by simp
    refine ⟨?_, ?_, ?_, ?_⟩
    · simp only [opB, e, if_false]; push_cast; exact rep_Bm a b' ha hb'
    · simp only [opB, e, if_false]; push_cast; change (b' : ℝ) + 1 + (-1) = b'; ring
    · simp only [opB, e, if_false]; rfl
    · intro n; simp only [opB, e, if_false]; rfl

theorem Y_uv (l : Nat) (m s : Int) (z : ℝ) (h0 : -1 ≤ z) (h1 : z ≤ 1) :
    Y l m s z = (-1) ^ (max m (-s)) * (√(1 - z) ^ (m + s).natAbs * √(1 + z) ^ (m - s).natAbs) *
      Q (l - max m.natAbs s.natAbs) (m + s).natAbs (m - s).natAbs z := by
  have p1 : 0 ≤ 1 - z := by linarith
  have p2 : 0 ≤ 1 + z := by linarith
  rw [Y, Real.sqrt_mul (by positivity)]
  congr 2
  congr 1
  · rw [Real.sqrt_eq_iff_mul_self_eq (by positivity) (by positivity), ← mul_pow, Real.mul_self_sqrt p1]
  · rw [Real.sqrt_eq_iff_mul_self_eq (by positivity) (by positivity), ← mul_pow, Real.mul_self_sqrt p2]

/-- the sine at `z = cos θ` -/
noncomputable def sn (z : ℝ) : ℝ := √(1 - z) * √(1 + z)

theorem sign_sin (m s ds : Int) (hds : ds = 1 ∨ ds = -1) :
    (((|m + (s + ds)| - |m + s|) * ds : Int) : ℝ) * (-1) ^ (max m (-(s + ds))) = (-1) ^ (max m (-s)) := by
  have key : ∀ k : Int, ((-1 : ℝ)) ^ (k + 1) = -(-1) ^ k := by
    intro k; rw [zpow_add_one₀ (by norm_num)]; ring
  rcases hds with rfl | rfl
  · rcases le_or_gt 0 (m + s) with h | h
    · rw [abs_of_nonneg h, abs_of_nonneg (by omega : 0 ≤ m + (s + 1)), max_eq_left (by omega), max_eq_left (by omega)]
      rw [show (m + (s + 1) - (m + s)) * 1 = 1 by ring]; simp
    · rw [abs_of_neg h, abs_of_nonpos (by omega : m + (s + 1) ≤ 0), max_eq_right (by omega), max_eq_right (by omega)]
      rw [show (-(m + (s + 1)) - -(m + s)) * 1 = -1 by ring, show -s = -(s + 1) + 1 by ring, key]; simp
  · rcases le_or_gt (m + s) 0 with h | h
    · rw [abs_of_nonpos h, abs_of_nonpos (by omega : m + (s + -1) ≤ 0), max_eq_right (by omega), max_eq_right (by omega)]
      rw [show (-(m + (s + -1)) - -(m + s)) * (-1) = -1 by ring, show -(s + -1) = -s + 1 by ring, key]; simp
    · rw [abs_of_pos h, abs_of_nonneg (by omega : 0 ≤ m + (s + -1)), max_eq_left (by omega), max_eq_left (by omega)]
      rw [show (m + (s + -1) - (m + s)) * (-1) = 1 by ring]; simp

theorem rows_step (Lmax : Nat) (m s ds p q : Int) (hds : ds = 1 ∨ ds = -1) (hl : max m.natAbs s.natAbs ≤ Lmax)
    (hp : p = (m + (s + ds)).natAbs - (m + s).natAbs) (hq : q = (m - (s + ds)).natAbs - (m - s).natAbs) :
    Lmax + 1 - max m.natAbs s.natAbs + (if q = 1 then 0 else 1) + (if p = 1 then 0 else 1) = Lmax + 2 - max m.natAbs (s + ds).natAbs := by
  rcases hds with rfl | rfl <;> split_ifs <;> omega

/-- one multiplication by the sine -/
theorem sin_expand (Lmax l : Nat) (m s ds : Int) (hds : ds = 1 ∨ ds = -1) (hl : max m.natAbs s.natAbs ≤ l) (hL : l ≤ Lmax) (z : ℝ)
    (h0 : -1 ≤ z) (h1 : z ≤ 1) :
    sn z * Y l m s z = ∑ i ∈ Finset.range (Lmax + 2 - max m.natAbs (s + ds).natAbs), operatorSin Lmax m s ds i (l - max m.natAbs s.natAbs) *
      Y (max m.natAbs (s + ds).natAbs + i) m (s + ds) z := by
  set a := (m + s).natAbs with hadef
  set b := (m - s).natAbs with hbdef
  set a' := (m + (s + ds)).natAbs with ha'def
  set b' := (m - (s + ds)).natAbs with hb'def
  set p : Int := |m + (s + ds)| - |m + s| with hp
  set q : Int := |m - (s + ds)| - |m - s| with hq
  have hpa : (p = 1 ∧ a' = a + 1) ∨ (p = -1 ∧ a = a' + 1) := by
    rw [Int.abs_eq_natAbs, Int.abs_eq_natAbs] at hp; omega
  have hqb : (q = 1 ∧ b' = b + 1) ∨ (q = -1 ∧ b = b' + 1) := by
    rw [Int.abs_eq_natAbs, Int.abs_eq_natAbs] at hq; omega
  have ha : (-1 : ℝ) < a := by have : (0 : ℝ) ≤ a := Nat.cast_nonneg a; linarith
  have hb' : (-1 : ℝ) < b' := by have : (0 : ℝ) ≤ b' := Nat.cast_nonneg b'; linarith
  obtain ⟨rB, eB1, eB2, eB3⟩ := rep_opB b b' a ha q hqb
  obtain ⟨rA, eA1, eA2, eA3⟩ := rep_opA a a' b' hb' p hpa
  have hc := RepAt.comp (L := opA p) (R := opB q) (a := a) (b := b) (mL := fun z => if p = 1 then 1 else 1 - z)
    (mR := fun z => if q = 1 then 1 else 1 + z) (by rw [eB1, eB2, add_zero]; exact rA) rB (Lmax + 1 - max m.natAbs s.natAbs)
    (l - max m.natAbs s.natAbs) z (by omega)
  have er : ((opA p).comp (opB q)).rows (Lmax + 1 - max m.natAbs s.natAbs) = Lmax + 2 - max m.natAbs (s + ds).natAbs := by
    change (opA p).rows ((opB q).rows _) = _
    rw [eB3, eA3]
    exact rows_step Lmax m s ds p q hds (by omega) (by rw [hp, Int.abs_eq_natAbs, Int.abs_eq_natAbs]) (by rw [hq, Int.abs_eq_natAbs, Int.abs_eq_natAbs])
  have ea : (a : ℝ) + ((opA p).comp (opB q)).da = a' := by
    change (a : ℝ) + ((opB q).da + (opA p).da) = a'
    rw [eB2, zero_add, eA1]
  have eb : (b : ℝ) + ((opA p).comp (opB q)).db = b' := by
    change (b : ℝ) + ((opB q).db + (opA p).db) = b'
    rw [eA2, add_zero, eB1]
  rw [er, ea, eb] at hc
  have eop : ∀ i, operatorSin Lmax m s ds i (l - max m.natAbs s.natAbs) = ((p * ds : Int) : ℝ) *
      ((opA p).comp (opB q)).entry (Lmax + 1 - max m.natAbs s.natAbs) a b i (l - max m.natAbs s.natAbs) := by
    intro i
    unfold operatorSin spin2JacobiStep spin2Jacobi
    simp only
    rw [← hp, ← hq, show |m + s| = (a : Int) from Int.abs_eq_natAbs _, show |m - s| = (b : Int) from Int.abs_eq_natAbs _,
      show ((Lmax : Int) + 1 - max |m| |s|).toNat = Lmax + 1 - max m.natAbs s.natAbs by rw [Int.abs_eq_natAbs, Int.abs_eq_natAbs]; omega]
    simp only [Int.cast_natCast]
  have hsgn := sign_sin m s ds hds
  rw [← hp] at hsgn
  have hu : √(1 - z) * √(1 - z) = 1 - z := Real.mul_self_sqrt (by linarith)
  have hv : √(1 + z) * √(1 + z) = 1 + z := Real.mul_self_sqrt (by linarith)
  have euA : √(1 - z) * √(1 - z) ^ a = (if p = 1 then 1 else 1 - z) * √(1 - z) ^ a' := by
    rcases hpa with ⟨h, e⟩ | ⟨h, e⟩
    · rw [if_pos h, e, pow_succ]; ring
    · rw [if_neg (by omega), e, pow_succ]; linear_combination √(1 - z) ^ a' * hu
  have evB : √(1 + z) * √(1 + z) ^ b = (if q = 1 then 1 else 1 + z) * √(1 + z) ^ b' := by
    rcases hqb with ⟨h, e⟩ | ⟨h, e⟩
    · rw [if_pos h, e, pow_succ]; ring
    · rw [if_neg (by omega), e, pow_succ]; linear_combination √(1 + z) ^ b' * hv
  have lhs : sn z * Y l m s z = (-1) ^ (max m (-s)) * (√(1 - z) ^ a' * √(1 + z) ^ b') *
      ((if p = 1 then 1 else 1 - z) * (if q = 1 then 1 else 1 + z) * Q (l - max m.natAbs s.natAbs) a b z) := by
    rw [Y_uv l m s z h0 h1, sn, ← hadef, ← hbdef]
    generalize Q (l - max m.natAbs s.natAbs) (a : ℝ) (b : ℝ) z = q'
    generalize ((-1 : ℝ)) ^ (max m (-s)) = e
    calc √(1 - z) * √(1 + z) * (e * (√(1 - z) ^ a * √(1 + z) ^ b) * q') = e * ((√(1 - z) * √(1 - z) ^ a) * (√(1 + z) * √(1 + z) ^ b)) * q' := by ring
      _ = _ := by rw [euA, evB]; ring
  rw [lhs, hc, Finset.mul_sum]
  apply Finset.sum_congr rfl
  intro i _
  rw [eop, Y_uv _ m (s + ds) z h0 h1, ← ha'def, ← hb'def, show max m.natAbs (s + ds).natAbs + i - max m.natAbs (s + ds).natAbs = i by omega, ← hsgn]
  ring

theorem rows_eq (Lmax : Nat) (m s ds : Int) (k : Nat) :
    (spin2Jacobi ((Lmax : Int) + k) m (s + k * ds)).1.toNat = Lmax + k + 1 - max m.natAbs (s + k * ds).natAbs := by
  unfold spin2Jacobi
  simp only [Int.abs_eq_natAbs]
  omega

/-- repeated multiplication by the sine -/
theorem sinPower_expand (Lmax l : Nat) (m s ds : Int) (hds : ds = 1 ∨ ds = -1) (hl : max m.natAbs s.natAbs ≤ l) (hL : l ≤ Lmax) (z : ℝ)
    (h0 : -1 ≤ z) (h1 : z ≤ 1) (k : Nat) :
    sn z ^ k * Y l m s z = ∑ i ∈ Finset.range (Lmax + k + 1 - max m.natAbs (s + k * ds).natAbs), sinPower Lmax m s ds k i (l - max m.natAbs s.natAbs) *
      Y (max m.natAbs (s + k * ds).natAbs + i) m (s + k * ds) z := by
  induction k with
  | zero =>
    rw [show s + ((0 : Nat) : Int) * ds = s by simp]
    rw [Finset.sum_eq_single (l - max m.natAbs s.natAbs)]
    · rw [sinPower]; beta_reduce; rw [if_pos rfl, pow_zero, one_mul, one_mul, show max m.natAbs s.natAbs + (l - max m.natAbs s.natAbs) = l by omega]
    · intro i _ hi
      rw [sinPower]; beta_reduce; rw [if_neg hi, zero_mul]
    · intro hn; exact absurd (Finset.mem_range.2 (by omega)) hn
  | succ k ih =>
    have es : s + ((k + 1 : Nat) : Int) * ds = s + (k : Int) * ds + ds := by push_cast; ring
    rw [es, pow_succ', mul_assoc, ih, Finset.mul_sum]
    have : ∀ i ∈ Finset.range (Lmax + k + 1 - max m.natAbs (s + k * ds).natAbs), sn z * (sinPower Lmax m s ds k i (l - max m.natAbs s.natAbs) *
        Y (max m.natAbs (s + k * ds).natAbs + i) m (s + k * ds) z) =
        ∑ r ∈ Finset.range (Lmax + (k + 1) + 1 - max m.natAbs (s + k * ds + ds).natAbs), operatorSin ((Lmax : Int) + k) m (s + k * ds) ds r i *
          sinPower Lmax m s ds k i (l - max m.natAbs s.natAbs) * Y (max m.natAbs (s + k * ds + ds).natAbs + r) m (s + k * ds + ds) z := by
      intro i hi
      have hi' := Finset.mem_range.1 hi
      have h := sin_expand (Lmax + k) (max m.natAbs (s + k * ds).natAbs + i) m (s + k * ds) ds hds (by omega) (by omega) z h0 h1
      rw [mul_left_comm, h, Finset.mul_sum, show Lmax + (k + 1) + 1 = Lmax + k + 2 by ring]
      apply Finset.sum_congr rfl
      intro r _
      rw [show max m.natAbs (s + k * ds).natAbs + i - max m.natAbs (s + k * ds).natAbs = i by omega]
      push_cast
      ring
    rw [Finset.sum_congr rfl this, Finset.sum_comm]
    apply Finset.sum_congr rfl
    intro r _
    rw [sinPower, rows_eq, Finset.sum_mul]

theorem sn_continuous : Continuous sn := by unfold sn; fun_prop

/-- the integral of two harmonics with a power of the sine -/
noncomputable def sinInt (k l l' : Nat) (m s s' : Int) : ℝ := ∫ z in (-1 : ℝ)..1, sn z ^ k * Y l m s z * Y l' m s' z

theorem sinInt_expand (Lmax l l' : Nat) (m s ds : Int) (hds : ds = 1 ∨ ds = -1) (k : Nat) (hl : max m.natAbs s.natAbs ≤ l) (hL : l ≤ Lmax)
    (hl' : max m.natAbs (s + k * ds).natAbs ≤ l') :
    sinInt k l l' m s (s + k * ds) = if l' ≤ Lmax + k then sinPower Lmax m s ds k (l' - max m.natAbs (s + k * ds).natAbs) (l - max m.natAbs s.natAbs) else 0 := by
  have e : sinInt k l l' m s (s + k * ds) = ∫ z in (-1 : ℝ)..1, ∑ i ∈ Finset.range (Lmax + k + 1 - max m.natAbs (s + k * ds).natAbs),
      sinPower Lmax m s ds k i (l - max m.natAbs s.natAbs) * (Y (max m.natAbs (s + k * ds).natAbs + i) m (s + k * ds) z * Y l' m (s + k * ds) z) := by
    unfold sinInt
    apply intervalIntegral.integral_congr
    intro z hz
    rw [Set.uIcc_of_le (by norm_num)] at hz
    simp only
    rw [sinPower_expand Lmax l m s ds hds hl hL z hz.1 hz.2 k, Finset.sum_mul]
    simp only [mul_assoc]
  have hint : ∀ i ∈ Finset.range (Lmax + k + 1 - max m.natAbs (s + k * ds).natAbs), IntervalIntegrable
      (fun z => sinPower Lmax m s ds k i (l - max m.natAbs s.natAbs) * (Y (max m.natAbs (s + k * ds).natAbs + i) m (s + k * ds) z * Y l' m (s + k * ds) z)) MeasureTheory.volume (-1) 1 :=
    fun i _ => Continuous.intervalIntegrable (continuous_const.mul ((Y_continuous _ m _).mul (Y_continuous _ m _))) _ _
  rw [e, intervalIntegral.integral_finset_sum hint]
  simp only [intervalIntegral.integral_const_mul]
  have ho : ∀ i, ∫ z in (-1 : ℝ)..1, Y (max m.natAbs (s + k * ds).natAbs + i) m (s + k * ds) z * Y l' m (s + k * ds) z =
      if i = l' - max m.natAbs (s + k * ds).natAbs then 1 else 0 := by
    intro i
    rw [Y_orthonormal _ _ m _ (by omega) hl']
    simp only [show (max m.natAbs (s + k * ds).natAbs + i = l') ↔ (i = l' - max m.natAbs (s + k * ds).natAbs) by omega]
  simp only [ho, mul_ite, mul_one, mul_zero]
  rw [Finset.sum_ite_eq']
  simp only [Finset.mem_range]
  by_cases h : l' ≤ Lmax + k
  · rw [if_pos h, if_pos (by omega)]
  · rw [if_neg h, if_neg (by omega)]

theorem sinInt_above (l l' : Nat) (m s ds : Int) (hds : ds = 1 ∨ ds = -1) (k : Nat) (hl : max m.natAbs s.natAbs ≤ l)
    (hl' : max m.natAbs (s + k * ds).natAbs ≤ l') (h : l + k < l') : sinInt k l l' m s (s + k * ds) = 0 := by
  rw [sinInt_expand l l l' m s ds hds k hl le_rfl hl', if_neg (by omega)]

theorem sinInt_below (l l' : Nat) (m s ds : Int) (hds : ds = 1 ∨ ds = -1) (k : Nat) (hl : max m.natAbs s.natAbs ≤ l)
    (hl' : max m.natAbs (s + k * ds).natAbs ≤ l') (h : l' + k < l) : sinInt k l l' m s (s + k * ds) = 0 := by
  have e : s + k * ds + k * -ds = s := by ring
  have h' := sinInt_above l' l m (s + k * ds) (-ds) (by omega) k hl' (by rw [e]; exact hl) h
  rw [e] at h'
  rw [← h']
  unfold sinInt
  congr 1
  funext z
  ring

end Dedalus.Sphere
