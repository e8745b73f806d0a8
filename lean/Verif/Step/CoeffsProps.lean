import Verif.Step.CoeffsLemmas

/-!
# C10: order of the multistep schemes
-/

namespace Dedalus.Step
variable {F : Type} [Field F] [LinearOrder F] [IsStrictOrderedRing F]

/-- C10. For every scheme, every list of timesteps kept by the stepper (newest first) whose entries
taken so far are positive, and every iteration: coefficients exist and the formula has order
`min (iteration + 1) steps`, where `steps` is the documented order of the scheme (1 for CNAB1 and SBDF1, 2 for
CNAB2, MCNAB2, SBDF2 and CNLF2, 3 for SBDF3, 4 for SBDF4). In particular the start-up formulas have
order 1, 2, 3 in the first steps, and use only timesteps that have been taken. -/
theorem multistep_order (s : Scheme) (ks : List F) (it : Nat) (t : F)
    (hl : ks.length = s.steps) (hpos : ∀ k ∈ ks.take (it + 1), 0 < k) :
    ∃ co, s.coeffs ks it = some co ∧
      HasOrder (min (it + 1) s.steps) co (sampleTimes t (ks.take (it + 1))) ∧
      co.a.length = min (it + 1) s.steps + 1 := by
  cases s with
  | CNAB1 =>
    match ks, hl with
    | [k0], _ =>
      have h : ∀ k ∈ [k0], 0 < k := by simpa using hpos
      obtain ⟨co, h1, h2, h3⟩ := cnab1_order k0 [] (h k0 (by simp)) t
      refine ⟨co, h1, ?_, ?_⟩
      · simpa [Scheme.steps] using h2
      · simp [Scheme.steps, h3]
  | SBDF1 =>
    match ks, hl with
    | [k0], _ =>
      have h : ∀ k ∈ [k0], 0 < k := by simpa using hpos
      obtain ⟨co, h1, h2, h3⟩ := sbdf1_order k0 [] (h k0 (by simp)) t
      refine ⟨co, h1, ?_, ?_⟩
      · simpa [Scheme.steps] using h2
      · simp [Scheme.steps, h3]
  | CNAB2 | MCNAB2 | SBDF2 | CNLF2 =>
    match ks, hl with
    | [k1, k0], _ =>
      match it with
      | 0 =>
        have h : 0 < k1 := by simpa using hpos
        first
          | (obtain ⟨co, h1, h2, h3⟩ := cnab1_order k1 [] h t
             exact ⟨co, h1, by simpa [Scheme.steps] using h2, by simp [Scheme.steps, h3]⟩)
          | (obtain ⟨co, h1, h2, h3⟩ := sbdf1_order k1 [] h t
             exact ⟨co, h1, by simpa [Scheme.steps] using h2, by simp [Scheme.steps, h3]⟩)
      | it + 1 =>
        have h : 0 < k1 ∧ 0 < k0 := by simpa using hpos
        have hm : min (it + 1 + 1) 2 = 2 := by omega
        first
          | (obtain ⟨co, h1, h2, h3⟩ := cnab2_order k1 k0 [] h.1 h.2 (it+1) (by omega) t
             exact ⟨co, h1, by simpa [Scheme.steps, hm] using h2, by simp [Scheme.steps, h3, hm]⟩)
          | (obtain ⟨co, h1, h2, h3⟩ := mcnab2_order k1 k0 [] h.1 h.2 (it+1) (by omega) t
             exact ⟨co, h1, by simpa [Scheme.steps, hm] using h2, by simp [Scheme.steps, h3, hm]⟩)
          | (obtain ⟨co, h1, h2, h3⟩ := sbdf2_order k1 k0 [] h.1 h.2 (it+1) (by omega) t
             exact ⟨co, h1, by simpa [Scheme.steps, hm] using h2, by simp [Scheme.steps, h3, hm]⟩)
          | (obtain ⟨co, h1, h2, h3⟩ := cnlf2_order k1 k0 [] h.1 h.2 (it+1) (by omega) t
             exact ⟨co, h1, by simpa [Scheme.steps, hm] using h2, by simp [Scheme.steps, h3, hm]⟩)
  | SBDF3 =>
    match ks, hl with
    | [k2, k1, k0], _ =>
      match it with
      | 0 =>
        have h : 0 < k2 := by simpa using hpos
        obtain ⟨co, h1, h2, h3⟩ := sbdf1_order k2 [] h t
        exact ⟨co, h1, by simpa [Scheme.steps] using h2, by simp [Scheme.steps, h3]⟩
      | 1 =>
        have h : 0 < k2 ∧ 0 < k1 := by simpa using hpos
        obtain ⟨co, h1, h2, h3⟩ := sbdf2_order k2 k1 [] h.1 h.2 1 (by omega) t
        exact ⟨co, h1, by simpa [Scheme.steps] using h2, by simp [Scheme.steps, h3]⟩
      | it + 2 =>
        have h : 0 < k2 ∧ 0 < k1 ∧ 0 < k0 := by simpa using hpos
        have hm : min (it + 2 + 1) 3 = 3 := by omega
        obtain ⟨co, h1, h2, h3⟩ := sbdf3_order k2 k1 k0 [] h.1 h.2.1 h.2.2 (it+2) (by omega) t
        exact ⟨co, h1, by simpa [Scheme.steps, hm] using h2, by simp [Scheme.steps, h3, hm]⟩
  | SBDF4 =>
    match ks, hl with
    | [k3, k2, k1, k0], _ =>
      match it with
      | 0 =>
        have h : 0 < k3 := by simpa using hpos
        obtain ⟨co, h1, h2, h3⟩ := sbdf1_order k3 [] h t
        exact ⟨co, h1, by simpa [Scheme.steps] using h2, by simp [Scheme.steps, h3]⟩
      | 1 =>
        have h : 0 < k3 ∧ 0 < k2 := by simpa using hpos
        obtain ⟨co, h1, h2, h3⟩ := sbdf2_order k3 k2 [] h.1 h.2 1 (by omega) t
        exact ⟨co, h1, by simpa [Scheme.steps] using h2, by simp [Scheme.steps, h3]⟩
      | 2 =>
        have h : 0 < k3 ∧ 0 < k2 ∧ 0 < k1 := by simpa using hpos
        obtain ⟨co, h1, h2, h3⟩ := sbdf3_order k3 k2 k1 [] h.1 h.2.1 h.2.2 2 (by omega) t
        exact ⟨co, h1, by simpa [Scheme.steps] using h2, by simp [Scheme.steps, h3]⟩
      | it + 3 =>
        have h : 0 < k3 ∧ 0 < k2 ∧ 0 < k1 ∧ 0 < k0 := by simpa using hpos
        have hm : min (it + 3 + 1) 4 = 4 := by omega
        obtain ⟨co, h1, h2, h3⟩ := sbdf4_order k3 k2 k1 k0 [] h.1 h.2.1 h.2.2.1 h.2.2.2 (it+3) (by omega) t
        exact ⟨co, h1, by simpa [Scheme.steps, hm] using h2, by simp [Scheme.steps, h3, hm]⟩

/-- The implicit part of CNAB1 is second order (documented "2nd-order Crank-Nicolson"), as is that
of every second order scheme by `multistep_order`. -/
theorem cnab1_implicit_second_order (k t : F) (hk : 0 < k) (y : Polynomial F) (hy : y.natDegree ≤ 2) :
    ∃ co, Scheme.CNAB1.coeffs [k] 0 = some co ∧
      wsum co.a (fun t => y.eval t) (sampleTimes t [k]) =
        wsum co.b (fun t => y.derivative.eval t) (sampleTimes t [k]) := by
  refine ⟨_, rfl, exact_shift 2 _ _ [k] t (fun y hy => exact_of_monomials 2 _ _ _ ?_ y hy) y hy⟩
  intro n hn
  interval_cases n <;> simp [wsum, sampleTimes, timesBefore] <;> field_simp <;> norm_num

-- The hypotheses are met: SBDF4 with four different timesteps, at its fifth step.
example : ([1, 1/2, 2, 1/3] : List ℚ).length = Scheme.SBDF4.steps ∧
    ∀ k ∈ ([1, 1/2, 2, 1/3] : List ℚ).take (4 + 1), 0 < k := by
  constructor
  · rfl
  · intro k hk
    simp at hk
    rcases hk with rfl | rfl | rfl | rfl <;> norm_num

end Dedalus.Step
