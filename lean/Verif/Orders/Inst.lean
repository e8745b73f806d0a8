import Verif.Orders.Pack

namespace Dedalus.Orders
open Subsys Dist

/-! ## Real sphere -/

def oReal (Q k : Nat) : Int := 2 * (Q : Int) - 1 - k

theorem mmax_pos {M : Nat} (h : 2 ≤ M) : 0 < mmax (2 * M) := by unfold mmax; omega

theorem permReal_eq (Q r : Nat) (h : r < 4 * Q) :
    Sphere.permReal (4 * Q) r = if r / 2 % 2 = 0 then r % 2 + r / 2 else 4 * Q - 1 + r % 2 - r / 2 := by
  unfold Sphere.permReal
  rcases Nat.mod_two_eq_zero_or_one (r / 2) with h1 | h1 <;> simp [h1]

theorem wave_real (Q r : Nat) (hQ : 0 < Q) (h : r < 4 * Q) :
    wave .real (4 * Q) r = if r / 2 % 2 = 0 then ((r / 2 / 2 : Nat) : Int) else oReal Q (r / 2 / 2) := by
  have hm := mmax_pos (show 2 ≤ 2 * Q by omega)
  rw [show 2 * (2 * Q) = 4 * Q by ring] at hm
  unfold wave native perm Sphere.nativeReal oReal
  simp only [if_neg (by omega : ¬mmax (4 * Q) = 0), permReal_eq Q r h]
  split <;> omega

theorem perm_real_part (Q r : Nat) (hQ : 0 < Q) (h : r < 4 * Q) : perm .real (4 * Q) r % 2 = r % 2 := by
  have hm := mmax_pos (show 2 ≤ 2 * Q by omega)
  rw [show 2 * (2 * Q) = 4 * Q by ring] at hm
  unfold perm
  simp only [if_neg (by omega : ¬mmax (4 * Q) = 0), permReal_eq Q r h]
  split <;> omega

theorem pack_real (Q L : Nat) (hQ : 0 < Q) (h : 2 * Q ≤ L + 2) :
    Pack 2 Q L (L + 2 - 2 * Q) (oReal Q) (sphereGroup .real (4 * Q) L) (wave .real (4 * Q)) := by
  have e4 : 4 * Q = 2 * (2 * Q) := by ring
  have hmx : max 0 ((L : Int) + 2 - ((2 * Q : Nat) : Int)) = ((L + 2 - 2 * Q : Nat) : Int) := by omega
  refine ⟨by omega, ?_, ?_, ?_, ?_, ?_, ?_, ?_, ?_, ?_⟩
  · intro k hk
    unfold oReal
    rw [abs_of_nonneg (by omega)]; omega
  · intro k k' _ _ e; unfold oReal at e; omega
  · intro k k' _ _ e; unfold oReal at e; omega
  · intro k hk; omega
  · intro r j hr hj
    unfold sphereGroup
    simp only [e4]
    rw [Sphere.real_zero _ _ _ _ (by omega), if_neg (by omega)]
  · intro r j hr hj
    unfold sphereGroup
    simp only [e4]
    rw [Sphere.real_zero _ _ _ _ (by omega), if_pos hj, hmx]
    unfold oReal; simp
  · intro r j h0 h1 h2
    unfold sphereGroup
    simp only [e4]
    rw [Sphere.real_pos _ _ _ _ (by omega) (by omega), hmx]
  · intro r j h0 h1 h2
    unfold sphereGroup
    simp only [e4]
    rw [Sphere.real_neg _ _ _ _ (by omega) (by omega)]
    unfold oReal; simp
  · intro r hr
    exact wave_real Q r hQ (by omega)

/-! ## Complex sphere -/

def oComplex (M k : Nat) : Int := if k = 0 then (M : Int) else (k : Int) - M

theorem wave_complex (M r : Nat) (hM : 2 ≤ M) (h : r < 2 * M) :
    wave .complex (2 * M) r = if r % 2 = 0 then ((r / 2 : Nat) : Int) else oComplex M (r / 2) := by
  have hm := mmax_pos hM
  have e : 2 * M / 2 = M := by omega
  have hp : Sphere.permComplex (2 * M) r = if r % 2 = 0 then r / 2 else r / 2 + M := by
    unfold Sphere.permComplex
    rw [e]
    rcases Nat.mod_two_eq_zero_or_one r with h1 | h1 <;> simp [h1]
  unfold wave native perm
  simp only [if_neg (by omega : ¬mmax (2 * M) = 0), hp]
  unfold Sphere.nativeComplex oComplex
  simp only [e, show 2 * M % 2 = 0 by omega, Nat.zero_ne_one, if_false]
  by_cases h1 : r % 2 = 0
  · simp only [h1, if_true]
    rw [if_pos (by omega)]
  · simp only [h1, if_false]
    by_cases h0 : r / 2 = 0
    · simp [h0]
    · simp only [h0, if_false]
      rw [if_neg (by omega)]
      simp
      omega

theorem pack_complex (M L : Nat) (hM : 2 ≤ M) (h : M ≤ L + 1) :
    Pack 1 M L (L + 1 - M) (oComplex M) (sphereGroup .complex (2 * M) L) (wave .complex (2 * M)) := by
  have hmx : max 0 ((L : Int) + 1 - (M : Int)) = ((L + 1 - M : Nat) : Int) := by omega
  refine ⟨by omega, ?_, ?_, ?_, ?_, ?_, ?_, ?_, ?_, ?_⟩
  · intro k hk
    unfold oComplex
    by_cases h0 : k = 0
    · rw [if_pos h0, abs_of_nonneg (by omega)]; omega
    · rw [if_neg h0, abs_of_nonpos (by omega)]; omega
  · intro k k' _ _ e; unfold oComplex at e; split at e <;> split at e <;> omega
  · intro k k' _ _ e; unfold oComplex at e; split at e <;> omega
  · intro k hk; omega
  · intro r j hr hj
    have hr : r = 0 := by omega
    subst hr
    unfold sphereGroup
    simp only
    rw [Sphere.complex_zero, if_neg (by omega)]
  · intro r j hr hj
    have hr : r = 0 := by omega
    subst hr
    unfold sphereGroup
    simp only
    rw [Sphere.complex_zero, if_pos hj, hmx]
    unfold oComplex; simp
  · intro r j h0 h1 h2
    rw [Nat.div_one] at *
    unfold sphereGroup
    simp only
    rw [Sphere.complex_pos _ _ _ _ (by omega) (by omega), hmx]
  · intro r j h0 h1 h2
    rw [Nat.div_one] at *
    unfold sphereGroup
    simp only
    rw [Sphere.complex_neg _ _ _ _ (by omega) (by omega)]
    unfold oComplex; rw [if_neg (by omega)]
  · intro r hr
    rw [Nat.div_one]
    exact wave_complex M r hM (by omega)

end Dedalus.Orders
