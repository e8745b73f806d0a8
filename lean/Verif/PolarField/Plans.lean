import Verif.PolarField.Lemmas

namespace Dedalus.PolarField
open Orders Orders.Spec SphereField
open Spec (Accepted)

/-! ## Values and round trips for any radial plan -/

section
variable {coord0 coord1 : Spin.Coord} {sig : List Spin.Index}

theorem values_real (h : Spin.Spec.Suitable coord0 coord1 sig) {Nphi : Nat} (hA : Accepted .real Nphi) (N Nr Ng : Nat) (hN : Nphi ≤ N)
    (plan : List Nat → (Nat → Nat → ℝ) → Nat → Nat → ℝ) (f rad : Nat → ℝ) (R : Int → Int → Nat → ℝ → ℝ) (s : List Nat → Int)
    (a : List Nat → Int → Nat → ℂ) (c : List Nat → Nat → Nat → ℝ) (hc : Spec.HoldsReal sig Nphi Nr a c)
    (hplan : ∀ t, Spin.Spec.Component sig t → ∀ i x, i < polarRows .real Nphi → x < Ng →
      plan t (c t) i x * f x = ∑ n ∈ Finset.range Nr, R (s t) (wave .real Nphi i) n (rad x) * c t i n) :
    ∃ fs u, Spin.factors coord1 sig = some fs ∧ toGridReal coord0 coord1 sig Nphi N Ng plan f c = some u ∧
      ∀ t, Spin.Spec.Component sig t → ∀ j x, x < Ng → u t j x = Spec.realValue R fs s Nr (mmax Nphi) a (rad x) (Fourier.Spec.grid N j) t := by
  obtain ⟨fs, hf, -⟩ := Spin.spin_round_trip_complex coord0 coord1 sig h
  obtain ⟨g, hg1, hg2⟩ := radius_real h hf hA Nr Ng plan f rad R s a c hc hplan
  unfold toGridReal
  rw [hf]
  simp only [Option.bind_some, hg1]
  refine ⟨fs, _, rfl, rfl, fun t ht j x hx => ?_⟩
  beta_reduce
  unfold Spec.realValue
  by_cases hz : mmax Nphi = 0
  · unfold azimuthBackwardReal
    rw [if_pos hz]
    beta_reduce
    rw [hg2 t ht 0 x hA.pos hx, wave_zero_real Nphi hz 0 (by omega), hz, Finset.sum_range_one, zero_mode, one_mul]
    rfl
  · exact azimuth_real Nphi Nphi N hA.allowed hz hN (fun m => Spec.part R fs s Nr a m (rad x) t) (fun i => g t i x) (fun r hr => hg2 t ht r x hr hx) j

theorem round_trip_real (h : Spin.Spec.Suitable coord0 coord1 sig) {Nphi : Nat} (hA : Accepted .real Nphi) (N Nr Ng : Nat) (hN : Nphi ≤ N)
    (planB planF : List Nat → (Nat → Nat → ℝ) → Nat → Nat → ℝ) (f f' rad : Nat → ℝ) (R : Int → Int → Nat → ℝ → ℝ) (s : List Nat → Int)
    (kept : Int → Int → Nat → Prop) [∀ s m n, Decidable (kept s m n)]
    (a : List Nat → Int → Nat → ℂ) (c : List Nat → Nat → Nat → ℝ) (hc : Spec.HoldsReal sig Nphi Nr a c)
    (hB : ∀ t, Spin.Spec.Component sig t → ∀ i x, i < polarRows .real Nphi → x < Ng →
      planB t (c t) i x * f x = ∑ n ∈ Finset.range Nr, R (s t) (wave .real Nphi i) n (rad x) * c t i n)
    (hF : ∀ t, Spin.Spec.Component sig t → ∀ (u b : Nat → Nat → ℝ), (∀ i x, i < polarRows .real Nphi → x < Ng →
      u i x = (∑ n ∈ Finset.range Nr, R (s t) (wave .real Nphi i) n (rad x) * b i n) * f' x) → ∀ i n, i < polarRows .real Nphi → n < Nr →
        planF t u i n = if kept (s t) (wave .real Nphi i) n then b i n else 0)
    (hreal : ∀ fs, Spin.factors coord1 sig = some fs → ∀ t, Spin.Spec.Component sig t → ∀ x, x < Ng → (Spec.part R fs s Nr a 0 (rad x) t).im = 0) :
    ∃ u c', toGridReal coord0 coord1 sig Nphi N Ng planB f c = some u ∧ toCoeffReal coord0 coord1 sig Nphi N Ng planF f' u = some c' ∧
      ∀ t, Spin.Spec.Component sig t → ∀ i n, i < polarRows .real Nphi → n < Nr →
        c' t i n = if kept (s t) (wave .real Nphi i) n then c t i n else 0 := by
  obtain ⟨fs, hf, -⟩ := Spin.spin_round_trip_complex coord0 coord1 sig h
  obtain ⟨g, hg1, hg2⟩ := radius_real h hf hA Nr Ng planB f rad R s a c hc hB
  have hgd : ∀ t, Spin.Spec.Component sig t → ∀ r x, r < Nphi → x < Ng →
      azimuthForwardReal Nphi N (fun j => azimuthBackwardReal Nphi N (fun i => g t i x) j) r =
        SphereField.Spec.rowPart (Spec.part R fs s Nr a (wave .real Nphi r) (rad x) t) r := by
    intro t ht r x hr hx
    by_cases hz : mmax Nphi = 0
    · have h1 := (axisymmetric_real hA).1 hz
      have : r = 0 := by omega
      subst this
      unfold azimuthForwardReal azimuthBackwardReal
      rw [if_pos hz, if_pos hz, if_pos (by omega)]
      beta_reduce
      rw [hg2 t ht 0 x hr hx]
    · have hwave1 : wave .real Nphi 1 = 0 := by
        have h2 := (real_rows Nphi Nphi hA.allowed).2.2 0 (by rw [← rows_real hA]; unfold polarRows; simp only; split <;> omega)
        rw [Nat.mul_zero, Nat.zero_add] at h2
        rw [h2, real_wave_perm]
        unfold perm
        rw [if_neg hz]
        simp [Sphere.permReal]
      have h1 : Nphi ≠ 1 := fun e => hz ((axisymmetric_real hA).2 e)
      have hpos := hA.pos
      have hc1 : g t 1 x = 0 := by
        rw [hg2 t ht 1 x (by omega) hx, hwave1]
        exact hreal fs hf t ht x hx
      rw [azimuth_real_forward Nphi Nphi N hA.allowed hz hN (fun i => g t i x) hc1 r hr, hg2 t ht r x hr hx]
  obtain ⟨out, ho1, ho2⟩ := radius_real_forward h hf hA Nr Ng planF f' rad R s kept a
    (fun t i x => azimuthForwardReal Nphi N (fun j => azimuthBackwardReal Nphi N (fun i => g t i x) j) i) hF hgd (fun _ => hreal fs hf)
  unfold toGridReal toCoeffReal
  rw [hf]
  simp only [Option.bind_some, hg1, Option.map_some]
  refine ⟨_, out, rfl, ho1, fun t ht i n hi hn => ?_⟩
  rw [ho2 t ht i n hi hn, hc t ht i n hi hn]

theorem wave_mode_complex {Nphi : Nat} (hA : Accepted .complex Nphi) (hz : mmax Nphi = 0) : Nphi = 1 := by
  unfold mmax at hz
  rcases hA with h | ⟨h, _⟩ <;> omega

theorem values_complex (h : Spin.Spec.Suitable coord0 coord1 sig) {Nphi : Nat} (hA : Accepted .complex Nphi) (N Nr Ng : Nat) (hN : Nphi ≤ N)
    (plan : List Nat → (Nat → Nat → ℂ) → Nat → Nat → ℂ) (f rad : Nat → ℝ) (R : Int → Int → Nat → ℝ → ℝ) (s : List Nat → Int)
    (a : List Nat → Int → Nat → ℂ) (c : List Nat → Nat → Nat → ℂ) (hc : Spec.HoldsComplex sig Nphi Nr a c)
    (hplan : ∀ t, Spin.Spec.Component sig t → ∀ i x, i < Nphi → x < Ng →
      plan t (c t) i x * f x = ∑ n ∈ Finset.range Nr, (R (s t) (wave .complex Nphi i) n (rad x) : ℂ) * c t i n) :
    ∃ fs u, Spin.factors coord1 sig = some fs ∧ toGridComplex coord1 sig Nphi N plan f c = some u ∧
      ∀ t, Spin.Spec.Component sig t → ∀ j x, x < Ng → u t j x = Spec.complexValue R fs s Nr (mmax Nphi) a (rad x) (Fourier.Spec.grid N j) t := by
  obtain ⟨fs, hf, -⟩ := Spin.spin_round_trip_complex coord0 coord1 sig h
  have hr := radius_complex h hf Nr Ng plan f rad R s a c hc hplan
  unfold toGridComplex
  rw [hf]
  refine ⟨fs, _, rfl, rfl, fun t ht j x hx => ?_⟩
  beta_reduce
  unfold Spec.complexValue
  by_cases hz : mmax Nphi = 0
  · unfold azimuthBackwardComplex
    rw [if_pos hz]
    beta_reduce
    rw [hr t ht 0 x hA.pos hx, wave_zero_complex Nphi hz, hz]
    simp [Fourier.Spec.mode]
  · exact azimuth_complex Nphi Nphi N hA.allowed hz hN (fun m => Spec.part R fs s Nr a m (rad x) t) _ (fun r hr' => hr t ht r x hr' hx) j

theorem round_trip_complex (h : Spin.Spec.Suitable coord0 coord1 sig) {Nphi : Nat} (hA : Accepted .complex Nphi) (N Nr Ng : Nat) (hN : Nphi ≤ N)
    (planB planF : List Nat → (Nat → Nat → ℂ) → Nat → Nat → ℂ) (f f' rad : Nat → ℝ) (R : Int → Int → Nat → ℝ → ℝ) (s : List Nat → Int)
    (kept : Int → Int → Nat → Prop) [∀ s m n, Decidable (kept s m n)]
    (a : List Nat → Int → Nat → ℂ) (c : List Nat → Nat → Nat → ℂ) (hc : Spec.HoldsComplex sig Nphi Nr a c)
    (hB : ∀ t, Spin.Spec.Component sig t → ∀ i x, i < Nphi → x < Ng →
      planB t (c t) i x * f x = ∑ n ∈ Finset.range Nr, (R (s t) (wave .complex Nphi i) n (rad x) : ℂ) * c t i n)
    (hF : ∀ t, Spin.Spec.Component sig t → ∀ (u b : Nat → Nat → ℂ), (∀ i x, i < Nphi → x < Ng →
      u i x = (∑ n ∈ Finset.range Nr, (R (s t) (wave .complex Nphi i) n (rad x) : ℂ) * b i n) * f' x) → ∀ i n, i < Nphi → n < Nr →
        planF t u i n = if kept (s t) (wave .complex Nphi i) n then b i n else 0) :
    ∃ u c', toGridComplex coord1 sig Nphi N planB f c = some u ∧ toCoeffComplex coord1 sig Nphi N planF f' u = some c' ∧
      ∀ t, Spin.Spec.Component sig t → ∀ i n, i < Nphi → n < Nr →
        c' t i n = if kept (s t) (wave .complex Nphi i) n ∧ 2 * |wave .complex Nphi i| < Nphi then c t i n else 0 := by
  obtain ⟨fs, hf, -⟩ := Spin.spin_round_trip_complex coord0 coord1 sig h
  have hpos := hA.pos
  have hr := radius_complex h hf Nr Ng planB f rad R s a c hc hB
  unfold toGridComplex toCoeffComplex
  rw [hf]
  refine ⟨_, _, rfl, rfl, fun t ht i n hi hn => ?_⟩
  let a' : List Nat → Int → Nat → ℂ := fun t m l => if 2 * |m| < Nphi then a t m l else 0
  have hpart : ∀ m z t, Spec.part R fs s Nr a' m z t = if 2 * |m| < (Nphi : Int) then Spec.part R fs s Nr a m z t else 0 := by
    intro m z t
    unfold Spec.part
    by_cases h1 : 2 * |m| < (Nphi : Int)
    · rw [if_pos h1]
      congr 1
      funext t
      simp only [Spec.spinPart, a', if_pos h1]
    · rw [if_neg h1]
      rw [show Spec.spinPart R s Nr a' m z = fun _ => 0 by
        funext t
        simp only [Spec.spinPart, a', if_neg h1, mul_zero, Finset.sum_const_zero]]
      exact backward_zero fs 0 t
  have hgd : ∀ t, Spin.Spec.Component sig t → ∀ r x, r < Nphi → x < Ng →
      azimuthForwardComplex Nphi N (fun j => azimuthBackwardComplex Nphi N (fun i => radiusBackwardComplex fs planB f c t i x) j) r =
        Spec.part R fs s Nr a' (wave .complex Nphi r) (rad x) t := by
    intro t ht r x hr' hx
    rw [hpart]
    by_cases hz : mmax Nphi = 0
    · have h1 := wave_mode_complex hA hz
      have : r = 0 := by omega
      subst this
      unfold azimuthForwardComplex azimuthBackwardComplex
      rw [if_pos hz, if_pos hz, if_pos (by omega), wave_zero_complex Nphi hz, if_pos (by simp; omega)]
      beta_reduce
      rw [hr t ht 0 x hr' hx, wave_zero_complex Nphi hz]
    · rw [azimuth_complex_forward Nphi Nphi N hA.allowed hz hN _ r hr', hr t ht r x hr' hx]
  beta_reduce
  rw [radius_complex_forward h hf Nr Ng planF f' rad R s kept a' _ hF hgd t ht i n hi hn, hc t ht i n hi hn]
  simp only [a']
  by_cases h1 : kept (s t) (wave .complex Nphi i) n <;> by_cases h2 : 2 * |wave .complex Nphi i| < (Nphi : Int) <;> simp [h1, h2]

end

/-! ## Annulus -/

theorem factor_eq (rin rout : ℝ) (alpha : ℝ × ℝ) (Ng k : Nat) (g : Nat → ℝ) (x : Nat) :
    factor rin rout alpha Ng k g k x = ((rout - rin) / Shell.radiusGrid rin rout alpha Ng g x) ^ k := by
  unfold factor Shell.radialFactor
  split
  · rw [zpow_natCast]
  · have : k = 0 := by omega
    rw [this, pow_zero]

theorem factor_inv (rin rout : ℝ) (h0 : 0 < rin) (h1 : rin < rout) (alpha : ℝ × ℝ) (ha : -1 < alpha.1) (hb : -1 < alpha.2) (Ng k : Nat) (g : Nat → ℝ)
    (hg : Jacobi.GridGuess Ng alpha.1 alpha.2 g) (x : Nat) (hx : x < Ng) :
    factor rin rout alpha Ng k g k x * factor rin rout alpha Ng k g (-k) x = 1 := by
  have hr := (h0.trans (Shell.grid_inside rin rout h0 h1 alpha ha hb Ng g hg x hx).1).ne'
  unfold factor Shell.radialFactor
  split
  · rw [← zpow_add₀ (div_ne_zero (by linarith) hr), add_neg_cancel, zpow_zero]
  · rw [one_mul]

theorem annulus_entry (rin rout : ℝ) (h1 : rin < rout) (alpha : ℝ × ℝ) (ha : -1 < alpha.1) (hb : -1 < alpha.2) (Ng Nr k : Nat) (g : Nat → ℝ)
    (hg : Jacobi.GridGuess Ng alpha.1 alpha.2 g) (x n : Nat) (hx : x < Ng) (hn : n < Nr) :
    Jacobi.backwardMatrix Ng Nr (alpha.1 + k) (alpha.2 + k) alpha.1 alpha.2 g x n * factor rin rout alpha Ng k g k x =
      Spec.annulusMode Ng rin rout alpha k n (Shell.radiusGrid rin rout alpha Ng g x) := by
  have hk : (0 : ℝ) ≤ k := Nat.cast_nonneg k
  have h := Jacobi.matrix_backward_evaluates Ng Nr (by omega) (alpha.1 + k) (alpha.2 + k) alpha.1 alpha.2 (by linarith) (by linarith) ha hb g hg
    (fun m => if m = n then 1 else 0) x hx
  simp only [mul_ite, mul_one, mul_zero, Finset.sum_ite_eq', Finset.mem_range, hn, if_true, Jacobi.Spec.series, ite_mul, one_mul, zero_mul] at h
  rw [factor_eq, h]
  unfold Spec.annulusMode
  rw [show Jacobi.Spec.native rin rout (Shell.radiusGrid rin rout alpha Ng g x) = (Jacobi.quadrature Ng alpha.1 alpha.2 g x).1 from
    Shell.native_radius rin rout _ h1]
  by_cases hn' : n < Ng
  · rw [if_pos hn', if_pos (by omega), mul_comm]
  · rw [if_neg hn', if_neg (by omega), zero_mul]

theorem annulus_inverse (before : Bool) (rin rout : ℝ) (h0 : 0 < rin) (h1 : rin < rout) (alpha : ℝ × ℝ) (ha : -1 < alpha.1) (hb : -1 < alpha.2) (Ng Nr k : Nat)
    (hN : 0 < Ng) (g : Nat → ℝ) (hg : Jacobi.GridGuess Ng alpha.1 alpha.2 g) (F : Nat → Nat → ℝ)
    (hF : Jacobi.forwardMatrix before Ng Nr (alpha.1 + k) (alpha.2 + k) alpha.1 alpha.2 g = some F) (n n' : Nat) (hn : n < Nr) (hn' : n' < Nr) :
    ∑ x ∈ Finset.range Ng, F n x * (Spec.annulusMode Ng rin rout alpha k n' (Shell.radiusGrid rin rout alpha Ng g x) * factor rin rout alpha Ng k g (-k) x) =
      if n < Ng ∧ n = n' then 1 else 0 := by
  have h := Jacobi.matrix_round_trip before Ng Nr hN (alpha.1 + k) (alpha.2 + k) alpha.1 alpha.2 ha hb g hg F hF (fun m => if m = n' then 1 else 0) n hn
  simp only [mul_ite, mul_one, mul_zero, Finset.sum_ite_eq', Finset.mem_range, hn', if_true] at h
  rw [Finset.sum_congr rfl fun x hx => by
    rw [← annulus_entry rin rout h1 alpha ha hb Ng Nr k g hg x n' (Finset.mem_range.1 hx) hn', mul_assoc (Jacobi.backwardMatrix _ _ _ _ _ _ _ _ _),
      factor_inv rin rout h0 h1 alpha ha hb Ng k g hg x (Finset.mem_range.1 hx), mul_one], h]
  by_cases h2 : n < Ng <;> simp [h2]

section
variable {V : Type} [AddCommGroup V] [Module ℝ V]

theorem annulus_back (rin rout : ℝ) (h1 : rin < rout) (alpha : ℝ × ℝ) (ha : -1 < alpha.1) (hb : -1 < alpha.2) (Ng Nr k : Nat) (g : Nat → ℝ)
    (hg : Jacobi.GridGuess Ng alpha.1 alpha.2 g) (c : Nat → Nat → V) (i x : Nat) (hx : x < Ng) :
    factor rin rout alpha Ng k g k x • annulusBackward Ng Nr k alpha g c i x =
      ∑ n ∈ Finset.range Nr, Spec.annulusMode Ng rin rout alpha k n (Shell.radiusGrid rin rout alpha Ng g x) • c i n := by
  unfold annulusBackward
  rw [Finset.smul_sum]
  refine Finset.sum_congr rfl fun n hn => ?_
  rw [smul_smul, mul_comm, annulus_entry rin rout h1 alpha ha hb Ng Nr k g hg x n hx (Finset.mem_range.1 hn)]

theorem annulus_forw (before : Bool) (rin rout : ℝ) (h0 : 0 < rin) (h1 : rin < rout) (alpha : ℝ × ℝ) (ha : -1 < alpha.1) (hb : -1 < alpha.2) (Ng Nr k : Nat)
    (hN : 0 < Ng) (g : Nat → ℝ) (hg : Jacobi.GridGuess Ng alpha.1 alpha.2 g) (F : Nat → Nat → ℝ)
    (hF : Jacobi.forwardMatrix before Ng Nr (alpha.1 + k) (alpha.2 + k) alpha.1 alpha.2 g = some F) (u b : Nat → Nat → V) (i : Nat)
    (hu : ∀ x, x < Ng → u i x = factor rin rout alpha Ng k g (-k) x •
      ∑ n ∈ Finset.range Nr, Spec.annulusMode Ng rin rout alpha k n (Shell.radiusGrid rin rout alpha Ng g x) • b i n) (n : Nat) (hn : n < Nr) :
    annulusForward Ng F u i n = if n < Ng then b i n else 0 := by
  unfold annulusForward
  rw [Finset.sum_congr rfl fun x hx => by rw [hu x (Finset.mem_range.1 hx), Finset.smul_sum, Finset.smul_sum], Finset.sum_comm]
  have e : ∀ n' ∈ Finset.range Nr, ∑ x ∈ Finset.range Ng, F n x • factor rin rout alpha Ng k g (-k) x •
      Spec.annulusMode Ng rin rout alpha k n' (Shell.radiusGrid rin rout alpha Ng g x) • b i n' = if n < Ng ∧ n = n' then b i n' else 0 := by
    intro n' hn'
    simp only [smul_smul]
    rw [← Finset.sum_smul, Finset.sum_congr rfl fun x _ => by rw [mul_comm (factor _ _ _ _ _ _ _ _)],
      annulus_inverse before rin rout h0 h1 alpha ha hb Ng Nr k hN g hg F hF n n' hn (Finset.mem_range.1 hn')]
    split <;> simp
  rw [Finset.sum_congr rfl e]
  by_cases h2 : n < Ng
  · simp [h2, hn]
  · simp [h2]

end

/-! ## Disk -/

theorem sum_shift {V : Type} [AddCommMonoid V] (N k : Nat) (F : Nat → V) (hF : ∀ n, n < k → F n = 0) :
    ∑ n ∈ Finset.range N, F n = ∑ n ∈ Finset.range (N - k), F (k + n) := by
  rcases Nat.le_total k N with h | h
  · obtain ⟨M, rfl⟩ := Nat.exists_eq_add_of_le h
    rw [Finset.sum_range_add, Finset.sum_eq_zero (s := Finset.range k) fun n hn => hF n (Finset.mem_range.1 hn), zero_add, Nat.add_sub_cancel_left]
  · rw [Nat.sub_eq_zero_of_le h, Finset.sum_range_zero]
    exact Finset.sum_eq_zero fun n hn => hF n (by have := Finset.mem_range.1 hn; omega)

theorem sum_min {V : Type} [AddCommMonoid V] (A B : Nat) (F : Nat → V) :
    ∑ n ∈ Finset.range (min A B), F n = ∑ n ∈ Finset.range A, if n < B then F n else 0 := by
  rw [← Finset.sum_filter]
  refine Finset.sum_congr ?_ fun _ _ => rfl
  ext n
  simp

/-- The number of the row of an order and a part. -/
theorem row_unique {d : Dtype} {Nphi : Nat} (hA : Accepted d Nphi) (i j : Nat) (hi : i < Nphi) (hj : j < Nphi) (h1 : wave d Nphi i = wave d Nphi j)
    (h2 : perm d Nphi i % d.parts = perm d Nphi j % d.parts) : i = j := by
  by_cases hz : mmax Nphi = 0
  · rcases hA with rfl | ⟨h, _⟩
    · omega
    · unfold mmax at hz; omega
  · refine perm_inj d Nphi Nphi hA.allowed hz i j hi hj ?_
    cases d with
    | real =>
      rw [real_wave_perm, real_wave_perm] at h1
      simp only [Dtype.parts] at h2
      omega
    | complex =>
      have he := complex_rows Nphi Nphi hA.allowed hz
      have p1 := perm_lt .complex Nphi Nphi hA.allowed hz i hi
      have p2 := perm_lt .complex Nphi Nphi hA.allowed hz j hj
      unfold wave at h1
      rw [native_freq _ _ he p1, native_freq _ _ he p2] at h1
      unfold Fourier.Spec.freq at h1
      split at h1 <;> split at h1 <;> omega

theorem polar_rows {d : Dtype} {Nphi : Nat} (hA : Accepted d Nphi) : polarGrid d Nphi 1 0 = List.range Nphi := by
  unfold polarGrid
  have hdvd : ∃ C, Nphi = polarGridChunk d Nphi * C ∧ 0 < polarGridChunk d Nphi := by
    rcases hA with rfl | ⟨_, C, hC⟩
    · exact ⟨1, by cases d <;> rfl, by cases d <;> decide⟩
    · cases d with
      | complex => exact ⟨Nphi, (Nat.one_mul _).symm, Nat.one_pos⟩
      | real =>
        unfold polarGridChunk
        simp only [Dtype.parts] at hC ⊢
        split
        · exact ⟨Nphi, (Nat.one_mul _).symm, Nat.one_pos⟩
        · exact ⟨2 * C, by omega, by omega⟩
  obtain ⟨C, hC, hb⟩ := hdvd
  have h := rows_eq 1 (polarGridChunk d Nphi) C 0 hb
  rw [← hC] at h
  rw [h]
  simp [lo, hi, List.range_eq_range', ← hC]

theorem disk_rows {d : Dtype} {Nphi : Nat} (hA : Accepted d Nphi) (Nr Ng : Nat) (hN : Nphi < 4 * Nr) (hg : 0 < Ng) :
    ∃ maps, polarMaps true d Nphi Nr Ng 1 0 = some maps ∧ ∀ (V : Type) [AddCommGroup V] [Module ℝ V] (k : Nat) (alpha : ℝ) (g : Nat → ℝ) (s : Int),
      (∀ (c : Nat → Nat → V) i x, i < polarRows d Nphi → diskBackward maps Ng Nr k alpha g s c i x =
        if |wave d Nphi i| ≤ ((2 * (Nr - 1) : Nat) : Int) then Zernike.diskBackward Ng Nr k alpha (wave d Nphi i) s g
          (fun n => ((List.range (Nr - (wave d Nphi i).natAbs / 2)).map fun n => c i ((wave d Nphi i).natAbs / 2 + n)).getD n 0) x else 0) ∧
      ∀ (before : Bool) (u : Nat → Nat → V) i n, i < polarRows d Nphi → n < Nr → diskForward before maps Ng Nr k alpha g s u i n =
        if |wave d Nphi i| ≤ ((2 * (Nr - 1) : Nat) : Int) ∧ (wave d Nphi i).natAbs / 2 ≤ n then
          Zernike.diskForward before Ng Nr k alpha (wave d Nphi i) s g (u i) (n - (wave d Nphi i).natAbs / 2) else 0 := by
  have hnm : ∀ m : Int, (nmin true m).toNat = m.natAbs / 2 := by
    intro m
    unfold nmin
    rw [if_pos rfl, Int.abs_eq_natAbs]
    omega
  by_cases hreal : d = .real ∧ Nphi = 1
  · obtain ⟨rfl, rfl⟩ := hreal
    have hp := polar_axisymmetric true Nr Ng 1 0 (by omega) hg (by omega)
    rw [if_pos (Or.inl rfl)] at hp
    refine ⟨_, hp.2.2, fun V _ _ k alpha g s => ?_⟩
    have hw : ∀ i, i < 2 → wave .real 1 i = 0 := fun i hi => wave_zero_real 1 rfl i hi
    constructor
    · intro c i x hi
      have hi' : i < 2 := hi
      rw [hw i hi']
      unfold diskBackward Orders.backward
      simp only [List.foldl_cons, List.foldl_nil]
      rw [if_pos ⟨by omega, hi'⟩, if_neg (by simp), if_pos (by simp)]
      simp [Entry.col]
    · intro before u i n hi hn
      have hi' : i < 2 := hi
      rw [hw i hi']
      unfold diskForward Orders.forward
      simp only [List.foldl_cons, List.foldl_nil]
      rw [if_pos (by simp), if_pos ⟨by omega, hi', by omega, hn⟩]
      simp
  · have hAll : Orders.Spec.PolarAllowed true d Nphi Nr := by
      refine ⟨by omega, ?_, fun _ => ?_⟩
      · rcases hA with h1 | ⟨h1, h2⟩
        · left
          refine ⟨?_, h1⟩
          cases d with
          | real => exact absurd ⟨rfl, h1⟩ hreal
          | complex => rfl
        · exact Or.inr ⟨by omega, h2⟩
      · cases d <;> simp only <;> omega
    have hrows : polarRows d Nphi = Nphi := by
      unfold polarRows
      cases d with
      | complex => rfl
      | real =>
        have := hA.pos
        have h1 : Nphi ≠ 1 := fun e => hreal ⟨rfl, e⟩
        simp only
        rw [if_pos (by omega)]
    obtain ⟨-, maps, hm, hr⟩ := polar_order_maps_partial true d Nphi Nr Ng 1 0 hAll hg
    rw [polar_rows hA] at hr
    refine ⟨maps, hm, fun V _ _ k alpha g s => ⟨fun c i x hi => ?_, fun before u i n hi hn => ?_⟩⟩
    · rw [hrows] at hi
      unfold diskBackward
      rw [hr.backward V _ c i i x (range_get.2 ⟨hi, rfl⟩)]
      simp only [hnm]
    · rw [hrows] at hi
      unfold diskForward
      classical
      let u' : Int → Nat → Nat → V := fun m p => if h : ∃ j, j < Nphi ∧ wave d Nphi j = m ∧ perm d Nphi j % d.parts = p then u h.choose else fun _ => 0
      have hu' : ∀ j, j < Nphi → u' (wave d Nphi j) (perm d Nphi j % d.parts) = u j := by
        intro j hj
        have hex : ∃ j', j' < Nphi ∧ wave d Nphi j' = wave d Nphi j ∧ perm d Nphi j' % d.parts = perm d Nphi j % d.parts := ⟨j, hj, rfl, rfl⟩
        simp only [u']
        rw [dif_pos hex]
        obtain ⟨a1, a2, a3⟩ := hex.choose_spec
        rw [row_unique hA _ _ a1 hj a2 a3]
      rw [hr.forward V _ u' u (fun j r hjr => by
        obtain ⟨hj, rfl⟩ := range_get.1 hjr
        exact (hu' _ hj).symm) i i n (range_get.2 ⟨hi, rfl⟩) hn]
      simp only [hnm]
      rw [hu' i hi]

/-- The radial functions of the orders that are transformed. -/
noncomputable def lowMode (Nr Ng : Nat) (k : ℝ) (s m : Int) (n : Nat) (r : ℝ) : ℝ :=
  if |m| ≤ ((2 * (Nr - 1) : Nat) : Int) then Spec.diskMode Ng k s m n r else 0

/-- The coefficients that are kept. -/
def kept (Nr Ng : Nat) (s m : Int) (n : Nat) : Prop :=
  |m| ≤ ((2 * (Nr - 1) : Nat) : Int) ∧ m.natAbs / 2 ≤ n ∧ (m + s).natAbs + 2 * (n - m.natAbs / 2) < 2 * Ng

instance (Nr Ng : Nat) (s m : Int) (n : Nat) : Decidable (kept Nr Ng s m n) := by unfold kept; infer_instance

section
variable {V : Type} [AddCommGroup V] [Module ℝ V]

theorem low_sum (Nr Ng k : Nat) (alpha : ℝ) (s m : Int) (hm : |m| ≤ ((2 * (Nr - 1) : Nat) : Int)) (r : ℝ) (c : Nat → V) :
    ∑ n ∈ Finset.range Nr, lowMode Nr Ng (alpha + k) s m n r • c n =
      ∑ n ∈ Finset.range (min (Nr - m.natAbs / 2) (Ng - (m + s).natAbs / 2)), Zernike.Spec.Z 2 n (alpha + k) (m + s).natAbs r • c (m.natAbs / 2 + n) := by
  rw [sum_min, sum_shift Nr (m.natAbs / 2)]
  · refine Finset.sum_congr rfl fun n _ => ?_
    unfold lowMode Spec.diskMode
    rw [if_pos hm, Nat.add_sub_cancel_left]
    by_cases h : n < Ng - (m + s).natAbs / 2
    · rw [if_pos h, if_pos ⟨by omega, by omega⟩]
    · rw [if_neg h, if_neg (by omega), zero_smul]
  · intro n hn
    unfold lowMode Spec.diskMode
    rw [if_pos hm, if_neg (by omega), zero_smul]

theorem disk_back {d : Dtype} {Nphi : Nat} (hA : Accepted d Nphi) (Nr Ng : Nat) (hN : Nphi < 4 * Nr) (hg : 0 < Ng) (maps : List Entry)
    (hm : polarMaps true d Nphi Nr Ng 1 0 = some maps) (k : Nat) (alpha : ℝ) (ha : -1 < alpha) (g : Nat → ℝ) (hgg : Jacobi.GridGuess Ng alpha 0 g) (s : Int)
    (c : Nat → Nat → V) (i x : Nat) (hi : i < polarRows d Nphi) (hx : x < Ng) : diskBackward maps Ng Nr k alpha g s c i x =
      ∑ n ∈ Finset.range Nr, lowMode Nr Ng (alpha + k) s (wave d Nphi i) n (Zernike.radiusGrid 2 Ng alpha g x) • c i n := by
  obtain ⟨maps', hm', h⟩ := disk_rows hA Nr Ng hN hg
  rw [hm] at hm'
  cases hm'
  rw [(h V k alpha g s).1 c i x hi]
  by_cases hw : |wave d Nphi i| ≤ ((2 * (Nr - 1) : Nat) : Int)
  · have hw' : (wave d Nphi i).natAbs + 2 ≤ 2 * Nr := by rw [Int.abs_eq_natAbs] at hw; have : 0 < Nr := by omega
                                                         omega
    rw [if_pos hw, low_sum _ _ _ _ _ _ hw, (Zernike.disk_backward_evaluates Ng Nr k alpha _ s g ha hg hgg hw' _ x hx).2]
    refine Finset.sum_congr rfl fun n hn => ?_
    have := Finset.mem_range.1 hn
    congr 1
    rw [List.getD_eq_getElem?_getD, List.getElem?_map, List.getElem?_range (by omega)]
    rfl
  · rw [if_neg hw]
    symm
    refine Finset.sum_eq_zero fun n _ => ?_
    unfold lowMode
    rw [if_neg hw, zero_smul]

theorem disk_forw (before : Bool) {d : Dtype} {Nphi : Nat} (hA : Accepted d Nphi) (Nr Ng : Nat) (hN : Nphi < 4 * Nr) (hg : 0 < Ng) (maps : List Entry)
    (hm : polarMaps true d Nphi Nr Ng 1 0 = some maps) (k : Nat) (alpha : ℝ) (ha : -1 < alpha) (g : Nat → ℝ) (hgg : Jacobi.GridGuess Ng alpha 0 g) (s : Int)
    (u b : Nat → Nat → V) (i : Nat) (hi : i < polarRows d Nphi) (hu : ∀ x, x < Ng → u i x =
      ∑ n ∈ Finset.range Nr, lowMode Nr Ng (alpha + k) s (wave d Nphi i) n (Zernike.radiusGrid 2 Ng alpha g x) • b i n) (n : Nat) (hn : n < Nr) :
    diskForward before maps Ng Nr k alpha g s u i n = if kept Nr Ng s (wave d Nphi i) n then b i n else 0 := by
  obtain ⟨maps', hm', h⟩ := disk_rows hA Nr Ng hN hg
  rw [hm] at hm'
  cases hm'
  rw [(h V k alpha g s).2 before u i n hi hn]
  have hk : kept Nr Ng s (wave d Nphi i) n ↔ |wave d Nphi i| ≤ ((2 * (Nr - 1) : Nat) : Int) ∧ (wave d Nphi i).natAbs / 2 ≤ n ∧
    (wave d Nphi i + s).natAbs + 2 * (n - (wave d Nphi i).natAbs / 2) < 2 * Ng := Iff.rfl
  by_cases hw : |wave d Nphi i| ≤ ((2 * (Nr - 1) : Nat) : Int)
  · have hw' : (wave d Nphi i).natAbs + 2 ≤ 2 * Nr := by rw [Int.abs_eq_natAbs] at hw; have : 0 < Nr := by omega
                                                         omega
    by_cases hn' : (wave d Nphi i).natAbs / 2 ≤ n
    · rw [if_pos ⟨hw, hn'⟩]
      rw [Zernike.disk_forward_exact before Ng Nr k alpha _ s g ha hg hgg hw' _ (Nat.min_le_left _ (Ng - (wave d Nphi i + s).natAbs / 2)) (Nat.min_le_right _ _)
        (fun n => b i ((wave d Nphi i).natAbs / 2 + n)) (u i) (fun x hx => by rw [hu x hx, low_sum _ _ _ _ _ _ hw]) _ (by omega)]
      by_cases h3 : n - (wave d Nphi i).natAbs / 2 < Ng - (wave d Nphi i + s).natAbs / 2
      · rw [if_pos (by omega), if_pos (hk.2 ⟨hw, hn', by omega⟩)]
        congr 1
        omega
      · rw [if_neg (by omega), if_neg (fun e => by have := (hk.1 e).2.2; omega)]
    · rw [if_neg (fun e => hn' e.2), if_neg (fun e => hn' (hk.1 e).2.1)]
  · rw [if_neg (fun e => hw e.1), if_neg (fun e => hw (hk.1 e).1)]

end

end Dedalus.PolarField
