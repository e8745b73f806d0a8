import Verif.Sphere.Ladder

namespace Dedalus.Sphere

open Jacobi Jacobi.Spec Spec

theorem Y_H (l : Nat) (m s : Int) (θ : ℝ) (h0 : 0 < θ) (h1 : θ < Real.pi) :
    Y l m s (Real.cos θ) = (-1) ^ (max m (-s)) * H (l - max m.natAbs s.natAbs) (m + s).natAbs (m - s).natAbs θ := by
  rw [Y, H, ← hu_sq, ← hv_sq, ← pow_mul, ← pow_mul, mul_comm 2, mul_comm 2, pow_mul, pow_mul, ← mul_pow, Real.sqrt_sq]
  · ring
  · have := hu_pos θ h0 h1
    have := hv_pos θ h0 h1
    positivity

theorem sign_step (mu m s : Int) (hmu : mu = 1 ∨ mu = -1) :
    ((-1 : ℝ)) ^ (max m (-(s + mu))) = (if 0 ≤ mu * (m + s) then (mu : ℝ) else -mu) * (-1) ^ (max m (-s)) := by
  rcases hmu with rfl | rfl
  · by_cases h : 0 ≤ m + s
    · rw [if_pos (by omega), show max m (-(s + 1)) = max m (-s) by omega]; simp
    · rw [if_neg (by omega), show max m (-(s + 1)) = max m (-s) - 1 by omega, zpow_sub_one₀ (by norm_num)]
      push_cast
      norm_num
  · by_cases h : m + s ≤ 0
    · rw [if_pos (by omega), show max m (-(s + -1)) = max m (-s) + 1 by omega, zpow_add_one₀ (by norm_num)]
      push_cast
      ring
    · rw [if_neg (by omega), show max m (-(s + -1)) = max m (-s) by omega]; simp

theorem k_eq (l : Nat) (s mu : Int) (h : mu = 1 ∨ mu = -1) (hs : s.natAbs ≤ l) :
    k l s mu = -mu * √((l - mu * s) * (l + mu * s + 1)) / √2 := by
  have h2 : (s.natAbs : ℝ) ≤ l := by exact_mod_cast hs
  have h3 : |(s : ℝ)| ≤ l := by
    rw [← Int.cast_abs, Int.abs_eq_natAbs]; exact_mod_cast hs
  obtain ⟨h4, h5⟩ := abs_le.1 h3
  have h6 : 0 ≤ ((l : ℝ) - mu * s) * (l + mu * s + 1) := by
    rcases h with rfl | rfl
    · push_cast; exact mul_nonneg (by linarith) (by linarith)
    · push_cast; exact mul_nonneg (by linarith) (by linarith)
  rw [k, max_eq_right (by linarith), Real.sqrt_div h6]
  ring

/-- one step of the ladder on real functions -/
def RealDeriv (mu : Int) (m s : Int) (F : ℝ → ℝ) (G θ : ℝ) : Prop :=
  ∃ F', HasDerivAt F F' θ ∧ G = (F' - mu * (m + s * Real.cos θ) / Real.sin θ * F θ) / √2

set_option maxHeartbeats 1000000 in
/-- one step of the ladder -/
theorem Y_ladder (l : Nat) (m s mu : Int) (hmu : mu = 1 ∨ mu = -1) (hm : m.natAbs ≤ l) (hs : s.natAbs ≤ l) (θ : ℝ) (h0 : 0 < θ) (h1 : θ < Real.pi) :
    RealDeriv mu m s (fun x => Y l m s (Real.cos x)) (k l s mu * Y l m (s + mu) (Real.cos θ)) θ := by
  have hu0 := (hu_pos θ h0 h1).ne'
  have hv0 := (hv_pos θ h0 h1).ne'
  have hmu2 : (mu : ℝ) * mu = 1 := by rcases hmu with rfl | rfl <;> norm_num
  have d := (H_deriv (l - max m.natAbs s.natAbs) (m + s).natAbs (m - s).natAbs θ h0 h1).const_mul ((-1 : ℝ) ^ (max m (-s)))
  refine ⟨_, d.congr_of_eventuallyEq ?_, ?_⟩
  · have : Set.Ioo 0 Real.pi ∈ nhds θ := Ioo_mem_nhds h0 h1
    filter_upwards [this] with x hx
    exact Y_H l m s x hx.1 hx.2
  · beta_reduce
    rw [Y_H l m s θ h0 h1, Y_H l m (s + mu) θ h0 h1, sign_step mu m s hmu, ← hu_hv, k_eq l s mu hmu hs]
    have e : (mu : ℝ) * (m + s * Real.cos θ) / (hu θ * hv θ) =
        (((mu * (m + s) : Int) : ℝ) * hv θ ^ 2 + ((mu * (m - s) : Int) : ℝ) * hu θ ^ 2) / (2 * (hu θ * hv θ)) := by
      have c1 := hu_sq θ
      have c2 := hv_sq θ
      rw [c1, c2]
      push_cast
      field_simp
      ring
    rw [e]
    generalize ((-1 : ℝ)) ^ (max m (-s)) = ε
    by_cases hA : 0 ≤ mu * (m + s)
    · rw [if_pos hA]
      obtain ⟨a, ha⟩ := Int.eq_ofNat_of_zero_le hA
      have na : (m + s).natAbs = a := by rcases hmu with rfl | rfl <;> omega
      have na' : (m + (s + mu)).natAbs = a + 1 := by rcases hmu with rfl | rfl <;> omega
      rw [na, na', ha]
      by_cases hB : 0 < mu * (m - s)
      · obtain ⟨b, hb⟩ := Int.eq_ofNat_of_zero_le (show 0 ≤ mu * (m - s) - 1 by omega)
        have nb : (m - s).natAbs = b + 1 := by rcases hmu with rfl | rfl <;> omega
        have nb' : (m - (s + mu)).natAbs = b := by rcases hmu with rfl | rfl <;> omega
        have hb2 : mu * (m - s) = ((b + 1 : Nat) : Int) := by omega
        have hn : l - max m.natAbs (s + mu).natAbs = l - max m.natAbs s.natAbs := by rcases hmu with rfl | rfl <;> omega
        rw [nb, nb', hb2, hn]
        have c1 : (((l - max m.natAbs s.natAbs : Nat) : ℝ)) + b + 1 = l - mu * s := by
          have : ((l - max m.natAbs s.natAbs : Nat) : Int) + b + 1 = l - mu * s := by rcases hmu with rfl | rfl <;> omega
          exact_mod_cast this
        have c2 : (((l - max m.natAbs s.natAbs : Nat) : ℝ)) + a + 1 = l + mu * s + 1 := by
          have : ((l - max m.natAbs s.natAbs : Nat) : Int) + a + 1 = l + mu * s + 1 := by rcases hmu with rfl | rfl <;> omega
          exact_mod_cast this
        have h := H_Cp (l - max m.natAbs s.natAbs) a b θ h0 h1
        rw [c1, c2] at h
        push_cast at *
        linear_combination (-ε / √2) * h - ε * √((l - mu * s) * (l + mu * s + 1)) / √2 * H (l - max m.natAbs s.natAbs) (a + 1) b θ * hmu2
      · obtain ⟨b, hb⟩ := Int.eq_ofNat_of_zero_le (show 0 ≤ -(mu * (m - s)) by omega)
        have nb : (m - s).natAbs = b := by rcases hmu with rfl | rfl <;> omega
        have nb' : (m - (s + mu)).natAbs = b + 1 := by rcases hmu with rfl | rfl <;> omega
        have hb2 : mu * (m - s) = -(b : Int) := by omega
        rw [nb, nb', hb2]
        by_cases hl : l = max m.natAbs s.natAbs
        · have hz : (l : ℝ) - mu * s = 0 := by
            have : (l : Int) - mu * s = 0 := by rcases hmu with rfl | rfl <;> omega
            exact_mod_cast this
          have h := H_Dp_zero a b θ h0 h1
          rw [hz, show l - max m.natAbs s.natAbs = 0 by omega]
          simp only [zero_mul, Real.sqrt_zero, mul_zero, zero_div]
          push_cast
          linear_combination (-ε / √2) * h
        · obtain ⟨n, hn⟩ : ∃ n, l - max m.natAbs s.natAbs = n + 1 := ⟨l - max m.natAbs s.natAbs - 1, by omega⟩
          have hn' : l - max m.natAbs (s + mu).natAbs = n := by rcases hmu with rfl | rfl <;> omega
          rw [hn, hn']
          have c1 : ((n : ℝ)) + 1 = l - mu * s := by
            have : (n : Int) + 1 = l - mu * s := by rcases hmu with rfl | rfl <;> omega
            exact_mod_cast this
          have c2 : ((n : ℝ)) + a + b + 2 = l + mu * s + 1 := by
            have : (n : Int) + a + b + 2 = l + mu * s + 1 := by rcases hmu with rfl | rfl <;> omega
            exact_mod_cast this
          have h := H_Dp n a b θ h0 h1
          rw [c1, c2] at h
          push_cast at *
          linear_combination (-ε / √2) * h - ε * √((l - mu * s) * (l + mu * s + 1)) / √2 * H n (a + 1) (b + 1) θ * hmu2
    · rw [if_neg hA]
      obtain ⟨a, ha⟩ := Int.eq_ofNat_of_zero_le (show 0 ≤ -(mu * (m + s)) - 1 by omega)
      have na : (m + s).natAbs = a + 1 := by rcases hmu with rfl | rfl <;> omega
      have na' : (m + (s + mu)).natAbs = a := by rcases hmu with rfl | rfl <;> omega
      have ha2 : mu * (m + s) = -((a + 1 : Nat) : Int) := by omega
      rw [na, na', ha2]
      by_cases hB : 0 < mu * (m - s)
      · obtain ⟨b, hb⟩ := Int.eq_ofNat_of_zero_le (show 0 ≤ mu * (m - s) - 1 by omega)
        have nb : (m - s).natAbs = b + 1 := by rcases hmu with rfl | rfl <;> omega
        have nb' : (m - (s + mu)).natAbs = b := by rcases hmu with rfl | rfl <;> omega
        have hb2 : mu * (m - s) = ((b + 1 : Nat) : Int) := by omega
        have hn : l - max m.natAbs (s + mu).natAbs = l - max m.natAbs s.natAbs + 1 := by rcases hmu with rfl | rfl <;> omega
        rw [nb, nb', hb2, hn]
        have c1 : (((l - max m.natAbs s.natAbs : Nat) : ℝ)) + 1 = l + mu * s + 1 := by
          have : ((l - max m.natAbs s.natAbs : Nat) : Int) + 1 = l + mu * s + 1 := by rcases hmu with rfl | rfl <;> omega
          exact_mod_cast this
        have c2 : (((l - max m.natAbs s.natAbs : Nat) : ℝ)) + a + b + 2 = l - mu * s := by
          have : ((l - max m.natAbs s.natAbs : Nat) : Int) + a + b + 2 = l - mu * s := by rcases hmu with rfl | rfl <;> omega
          exact_mod_cast this
        have h := H_Dm (l - max m.natAbs s.natAbs) a b θ h0 h1
        rw [c1, c2, mul_comm ((l : ℝ) + mu * s + 1)] at h
        push_cast at *
        linear_combination (-ε / √2) * h + ε * √((l - mu * s) * (l + mu * s + 1)) / √2 * H (l - max m.natAbs s.natAbs + 1) a b θ * hmu2
      · obtain ⟨b, hb⟩ := Int.eq_ofNat_of_zero_le (show 0 ≤ -(mu * (m - s)) by omega)
        have nb : (m - s).natAbs = b := by rcases hmu with rfl | rfl <;> omega
        have nb' : (m - (s + mu)).natAbs = b + 1 := by rcases hmu with rfl | rfl <;> omega
        have hb2 : mu * (m - s) = -(b : Int) := by omega
        have hn : l - max m.natAbs (s + mu).natAbs = l - max m.natAbs s.natAbs := by rcases hmu with rfl | rfl <;> omega
        rw [nb, nb', hb2, hn]
        have c1 : (((l - max m.natAbs s.natAbs : Nat) : ℝ)) + a + 1 = l - mu * s := by
          have : ((l - max m.natAbs s.natAbs : Nat) : Int) + a + 1 = l - mu * s := by rcases hmu with rfl | rfl <;> omega
          exact_mod_cast this
        have c2 : (((l - max m.natAbs s.natAbs : Nat) : ℝ)) + b + 1 = l + mu * s + 1 := by
          have : ((l - max m.natAbs s.natAbs : Nat) : Int) + b + 1 = l + mu * s + 1 := by rcases hmu with rfl | rfl <;> omega
          exact_mod_cast this
        have h := H_Cm (l - max m.natAbs s.natAbs) a b θ h0 h1
        rw [c1, c2] at h
        push_cast at *
        linear_combination (-ε / √2) * h + ε * √((l - mu * s) * (l + mu * s + 1)) / √2 * H (l - max m.natAbs s.natAbs) a (b + 1) θ * hmu2

end Dedalus.Sphere
