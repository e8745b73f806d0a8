import Verif.Fourier.Model
import Mathlib.Analysis.SpecialFunctions.Complex.Log
import Mathlib.Algebra.Field.GeomSum
import Mathlib.Tactic.Ring
import Mathlib.Tactic.FieldSimp
import Mathlib.Tactic.Linarith

/-! Sums of waves over the grid. -/

namespace Dedalus.Fourier

open Complex

theorem wave_eq (N : Nat) (K X : Int) :
    wave N K X = Complex.exp (2 * Real.pi * Complex.I * ((K * X : Int) : ℂ) / N) := by
  unfold wave
  congr 1
  by_cases h : (N : ℂ) = 0
  · simp [h]
  · have hp : (Real.pi : ℂ) ≠ 0 := by exact_mod_cast Real.pi_ne_zero
    push_cast
    field_simp

/-- A power of the root of unity. -/
noncomputable def om (N : Nat) (k : Int) : ℂ := Complex.exp (2 * Real.pi * Complex.I * (k : ℂ) / N)

theorem wave_om (N : Nat) (K X : Int) : wave N K X = om N (K * X) := wave_eq N K X

theorem om_add (N : Nat) (a b : Int) : om N (a + b) = om N a * om N b := by
  unfold om
  rw [← Complex.exp_add]
  congr 1
  push_cast
  ring

theorem om_zero (N : Nat) : om N 0 = 1 := by simp [om]

theorem om_pow (N : Nat) (k : Int) (x : Nat) : om N (k * x) = om N k ^ x := by
  induction x with
  | zero => simp [om_zero]
  | succ x ih => rw [pow_succ, ← ih, ← om_add]; congr 1; push_cast; ring

theorem om_eq_one_iff (N : Nat) (hN : 0 < N) (k : Int) : om N k = 1 ↔ (N : Int) ∣ k := by
  unfold om
  rw [Complex.exp_eq_one_iff]
  have hN' : (N : ℂ) ≠ 0 := by exact_mod_cast hN.ne'
  have hp : (2 * Real.pi * Complex.I : ℂ) ≠ 0 := Complex.two_pi_I_ne_zero
  constructor
  · rintro ⟨n, hn⟩
    refine ⟨n, ?_⟩
    rw [div_eq_iff hN'] at hn
    have : (2 * Real.pi * Complex.I : ℂ) * (k : ℂ) = (2 * Real.pi * Complex.I : ℂ) * ((N : Int) * n : Int) := by
      rw [hn]; push_cast; ring
    exact_mod_cast mul_left_cancel₀ hp this
  · rintro ⟨n, rfl⟩
    refine ⟨n, ?_⟩
    push_cast
    field_simp

theorem om_sum (N : Nat) (hN : 0 < N) (k : Int) :
    ∑ x ∈ Finset.range N, om N (k * x) = if (N : Int) ∣ k then (N : ℂ) else 0 := by
  simp only [om_pow]
  split
  · rename_i h
    rw [(om_eq_one_iff N hN k).mpr h]
    simp
  · rename_i h
    have h1 : om N k ≠ 1 := fun e => h ((om_eq_one_iff N hN k).mp e)
    rw [geom_sum_eq h1, ← om_pow, (om_eq_one_iff N hN _).mpr (Dvd.intro_left k rfl)]
    simp

theorem om_mod (N : Nat) (hN : 0 < N) (a b : Int) (h : (N : Int) ∣ a - b) : om N a = om N b := by
  have : om N a = om N b * om N (a - b) := by rw [← om_add]; congr 1; ring
  rw [this, (om_eq_one_iff N hN _).mpr h, mul_one]

/-- A multiple of `N` of size less than `N` is zero. -/
theorem dvd_small {N : Nat} {k : Int} (h : (N : Int) ∣ k) (h1 : -(N : Int) < k) (h2 : k < N) : k = 0 :=
  Int.eq_zero_of_abs_lt_dvd h (abs_lt.mpr ⟨h1, h2⟩)

/-! ### Wavenumbers -/

theorem kmax_lt (N M : Nat) (hN : 0 < N) : 2 * kmax N M < N := by
  unfold kmax halfSize; omega

theorem kmax_le (N M : Nat) : 2 * kmax N M ≤ M - 1 := by
  unfold kmax halfSize; omega

theorem wavenumber_range (M m : Nat) (hm : m < M) :
    -(halfSize M : Int) ≤ wavenumber M m ∧ wavenumber M m < M - halfSize M := by
  unfold wavenumber
  have := Nat.mod_lt (m + halfSize M) (show 0 < M by omega)
  constructor <;> omega

/-- The wavenumber of an index, congruent to it. -/
theorem wavenumber_low (M m : Nat) (h : m + halfSize M < M) : wavenumber M m = m := by
  unfold wavenumber
  rw [Nat.mod_eq_of_lt h]
  omega

theorem wavenumber_high (M m : Nat) (h : M ≤ m + halfSize M) (hm : m < M) : wavenumber M m = (m : Int) - M := by
  unfold wavenumber
  have : halfSize M < M := by unfold halfSize; omega
  rw [Nat.mod_eq_sub_mod h, Nat.mod_eq_of_lt (by omega)]
  omega

theorem wavenumber_inj (M m m' : Nat) (hm : m < M) (hm' : m' < M) (h : wavenumber M m = wavenumber M m') : m = m' := by
  have hh : halfSize M < M := by unfold halfSize; omega
  by_cases h1 : m + halfSize M < M <;> by_cases h2 : m' + halfSize M < M
  · rw [wavenumber_low M m h1, wavenumber_low M m' h2] at h; omega
  · rw [wavenumber_low M m h1, wavenumber_high M m' (by omega) hm'] at h; omega
  · rw [wavenumber_high M m (by omega) hm, wavenumber_low M m' h2] at h; omega
  · rw [wavenumber_high M m (by omega) hm, wavenumber_high M m' (by omega) hm'] at h; omega

/-! ### Slices -/

theorem put_hit {α : Type} (dst : Nat → α) (index : Nat → Nat) (vals : Nat → α) :
    ∀ (c : Nat), (∀ s t, s < c → t < c → index s = index t → s = t) → ∀ t, t < c → put dst index vals c (index t) = vals t
  | 0, _, t, ht => by omega
  | c + 1, hinj, t, ht => by
    show (if index t = index c then vals c else put dst index vals c (index t)) = vals t
    by_cases e : index t = index c
    · rw [if_pos e]
      have := hinj t c ht (by omega) e
      rw [this]
    · rw [if_neg e]
      have : t ≠ c := fun h => e (by rw [h])
      exact put_hit dst index vals c (fun s t hs ht => hinj s t (by omega) (by omega)) t (by omega)

theorem put_miss {α : Type} (dst : Nat → α) (index : Nat → Nat) (vals : Nat → α) (i : Nat) :
    ∀ (c : Nat), (∀ t, t < c → index t ≠ i) → put dst index vals c i = dst i
  | 0, _ => rfl
  | c + 1, h => by
    show (if i = index c then vals c else put dst index vals c i) = dst i
    rw [if_neg (fun e => h c (by omega) e.symm)]
    exact put_miss dst index vals i c (fun t ht => h t (by omega))

/-- A unit-stride assignment. -/
theorem put_unit {α : Type} (dst : Nat → α) (s : Nat) (vals : Nat → α) (c i : Nat) :
    put dst (fun t => s + t * 1) vals c i = if s ≤ i ∧ i < s + c then vals (i - s) else dst i := by
  split
  · rename_i h
    have h1 := put_hit dst (fun t => s + t * 1) vals c (fun _ _ _ _ e => by simp at e; exact e) (i - s) (by omega)
    have h2 : s + (i - s) * 1 = i := by omega
    simp only [h2] at h1
    exact h1
  · rename_i h
    exact put_miss _ _ _ _ _ (fun t ht e => h (by simp at e; omega))

/-- A stride of two. -/
theorem put_two {α : Type} (dst : Nat → α) (s : Nat) (vals : Nat → α) (c i : Nat) :
    put dst (fun t => s + t * 2) vals c i =
      if s ≤ i ∧ (i - s) % 2 = 0 ∧ (i - s) / 2 < c then vals ((i - s) / 2) else dst i := by
  split
  · rename_i h
    have h1 := put_hit dst (fun t => s + t * 2) vals c (fun _ _ _ _ e => by simp at e; exact e) ((i - s) / 2) (by omega)
    have h2 : s + (i - s) / 2 * 2 = i := by omega
    simp only [h2] at h1
    exact h1
  · rename_i h
    exact put_miss _ _ _ _ _ (fun t ht e => h (by have e' : s + t * 2 = i := e; omega))

/-- A stride of minus one from the end. -/
theorem put_down {α : Type} (dst : Nat → α) (n : Nat) (vals : Nat → α) (c i : Nat) (hc : c ≤ n) :
    put dst (fun t => ((n : Int) - 1 - t).toNat) vals c i = if n - c ≤ i ∧ i < n then vals (n - 1 - i) else dst i := by
  split
  · rename_i h
    have h1 := put_hit dst (fun t => ((n : Int) - 1 - t).toNat) vals c (fun _ _ _ _ e => by simp at e; omega) (n - 1 - i) (by omega)
    have h2 : ((n : Int) - 1 - ((n - 1 - i : Nat) : Int)).toNat = i := by omega
    simp only [h2] at h1
    exact h1
  · rename_i h
    exact put_miss _ _ _ _ _ (fun t ht e => h (by simp at e; omega))

end Dedalus.Fourier
