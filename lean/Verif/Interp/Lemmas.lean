import Verif.Interp.Model
import Verif.SphereField.Props
import Verif.PolarField.Spec

/-! Lemmas for C100. -/

namespace Dedalus.Interp
open Orders Orders.Spec SphereField

/-! ## Azimuth -/

theorem accepted_allowed {d : Dtype} {Nphi : Nat} (h : PolarField.Spec.Accepted d Nphi) : Allowed d Nphi Nphi := by
  rcases h with rfl | ⟨h1, h2⟩
  · exact ⟨by omega, Or.inl rfl⟩
  · exact ⟨by omega, Or.inr ⟨by omega, h2, by omega⟩⟩

theorem gridSize_le {dealias : ℚ} (hd : 1 ≤ dealias) (Nphi : Nat) : Nphi ≤ gridSize dealias Nphi := by
  unfold gridSize
  split
  · omega
  · have h1 : ((Nphi : ℚ)) ≤ dealias * Nphi := le_mul_of_one_le_left (by positivity) hd
    exact_mod_cast h1.trans (Nat.le_ceil _)

theorem rows_size {d : Dtype} {Nphi : Nat} (h : PolarField.Spec.Accepted d Nphi) (dealias : ℚ) : gridRows dealias Nphi = gridSize dealias Nphi := by
  unfold gridRows
  split
  · rename_i hm
    rcases h with rfl | ⟨h1, h2⟩
    · rfl
    · exfalso
      unfold mmax at hm
      omega
  · rfl

/-- The permutation reorders sums. -/
theorem sum_perm {V : Type} [AddCommMonoid V] (d : Dtype) (Nphi Ntheta : Nat) (h : Allowed d Nphi Ntheta) (hm : mmax Nphi ≠ 0) (f : Nat → V) :
    ∑ i ∈ Finset.range Nphi, f (perm d Nphi i) = ∑ k ∈ Finset.range Nphi, f k := by
  refine Finset.sum_nbij' (perm d Nphi) (backPerm d Nphi) ?_ ?_ ?_ ?_ ?_
  · intro i hi
    exact Finset.mem_range.2 (perm_lt d Nphi Ntheta h hm i (Finset.mem_range.1 hi))
  · intro k hk
    exact Finset.mem_range.2 (backPerm_spec d Nphi Ntheta h hm k (Finset.mem_range.1 hk)).1
  · intro i hi
    exact backPerm_perm d Nphi Ntheta h hm i (Finset.mem_range.1 hi)
  · intro k hk
    exact (backPerm_spec d Nphi Ntheta h hm k (Finset.mem_range.1 hk)).2
  · intro i _; rfl

theorem swap_sums {R : Type} [CommSemiring R] (N M : Nat) (F : Nat → R) (A : Nat → Nat → R) (u : Nat → R) :
    ∑ j ∈ Finset.range N, (∑ i ∈ Finset.range M, F i * A i j) * u j = ∑ i ∈ Finset.range M, F i * ∑ j ∈ Finset.range N, A i j * u j := by
  simp only [Finset.sum_mul, Finset.mul_sum]
  rw [Finset.sum_comm]
  exact Finset.sum_congr rfl fun i _ => Finset.sum_congr rfl fun j _ => by ring

theorem azimuth_interp_real {Nphi : Nat} (hA : PolarField.Spec.Accepted .real Nphi) {dealias : ℚ} (hd : 1 ≤ dealias) {pos : Fourier.Position} {φ : ℝ}
    (hp : azimuthCov.nativeCoord pos = some φ) (w : Int → ℂ) (u : Nat → ℝ)
    (hu : ∀ j, u j = ∑ m ∈ Finset.range (mmax Nphi + 1), (Fourier.Spec.mode m (Fourier.Spec.grid (gridSize dealias Nphi) j) * w m).re) :
    azimuthReal dealias Nphi pos u = some (∑ m ∈ Finset.range (mmax Nphi + 1), (Fourier.Spec.mode m φ * w m).re) := by
  unfold azimuthReal
  rw [if_pos (rows_size hA dealias), hp, Option.map_some]
  congr 1
  by_cases hm : mmax Nphi = 0
  · have h1 : Nphi = 1 := by
      rcases hA with rfl | ⟨h1, h2⟩
      · rfl
      · unfold mmax at hm; omega
    subst h1
    have hg : gridSize dealias 1 = 1 := rfl
    rw [hg, Finset.sum_range_one, hu, hm]
    have hmo : modes .real 1 = 2 := rfl
    rw [hmo, Finset.sum_range_succ, Finset.sum_range_one]
    have w0 : wave .real 1 0 = 0 := rfl
    have w1 : wave .real 1 1 = 0 := rfl
    have p0 : perm .real 1 0 = 0 := rfl
    have p1 : perm .real 1 1 = 1 := rfl
    simp [fourierReal, w0, w1, p0, Fourier.realForwardMatrix, Fourier.Spec.mode, Fourier.kmax]
  · have hAl := accepted_allowed hA
    have hN := gridSize_le hd Nphi
    generalize gridSize dealias Nphi = N at *
    have heven : Nphi = 2 * (mmax Nphi + 1) := by
      rcases hAl.2 with rfl | ⟨_, ⟨C, rfl⟩, _⟩
      · exact absurd rfl hm
      · simp only [Dtype.parts, mmax] at *; omega
    have hrows := real_rows Nphi Nphi hAl
    have hgr : sphereGridRows .real Nphi = Nphi := by unfold sphereGridRows; rw [if_pos (by omega)]
    rw [hgr] at hrows
    have hmo : modes .real Nphi = Nphi := heven.symm
    let c : Nat → ℝ := fun r => Spec.rowPart (w (wave .real Nphi r)) r
    have hub : ∀ j, u j = azimuthBackwardReal Nphi N c j := fun j => by
      rw [hu, azimuth_real Nphi Nphi N hAl hm hN w c (fun r _ => rfl) j]
    rw [hmo, swap_sums]
    have e : ∀ i ∈ Finset.range Nphi, fourierReal Nphi φ i * ∑ j ∈ Finset.range N, Fourier.realForwardMatrix N Nphi (perm .real Nphi i) j * u j =
        (fun k => Spec.rowPart (w ((k / 2 : Nat) : Int)) k * Fourier.Spec.realMode k φ) (perm .real Nphi i) := by
      intro i hi
      have hi := Finset.mem_range.1 hi
      have hp := perm_lt .real Nphi Nphi hAl hm i hi
      have h2 := hrows.2.1 i hi
      have e1 : ∑ j ∈ Finset.range N, Fourier.realForwardMatrix N Nphi (perm .real Nphi i) j * u j =
          Fourier.realForwardMMT N Nphi (Fourier.realBackwardMMT N Nphi fun k => c (backPerm .real Nphi k)) (perm .real Nphi i) := by
        unfold Fourier.realForwardMMT
        refine Finset.sum_congr rfl fun j _ => ?_
        rw [hub j]
        unfold azimuthBackwardReal
        rw [if_neg hm]
      rw [e1, Fourier.real_round_trip N Nphi (by omega) _ _ hp, backPerm_perm .real Nphi Nphi hAl hm i hi]
      have hres : Fourier.Spec.Resolved N Nphi ((perm .real Nphi i / 2 : Nat) : Int) := by
        unfold Fourier.Spec.Resolved
        rw [abs_of_nonneg (by omega)]
        omega
      have hF : fourierReal Nphi φ i = Fourier.Spec.realMode (perm .real Nphi i) φ := by
        unfold fourierReal Fourier.Spec.realMode
        rw [h2, real_wave_perm]
        simp only [Int.cast_natCast]
      have hc : c i = Spec.rowPart (w ((perm .real Nphi i / 2 : Nat) : Int)) (perm .real Nphi i) := by
        show Spec.rowPart (w (wave .real Nphi i)) i = _
        rw [real_wave_perm]
        unfold Spec.rowPart
        rw [h2]
      beta_reduce
      rw [hF, hc]
      by_cases h1 : perm .real Nphi i = 1
      · rw [if_neg (fun e => e.2 h1), h1]
        simp [Fourier.Spec.realMode]
      · rw [if_pos ⟨hres, h1⟩, mul_comm]
    rw [Finset.sum_congr rfl e, sum_perm .real Nphi Nphi hAl hm (fun k => Spec.rowPart (w ((k / 2 : Nat) : Int)) k * Fourier.Spec.realMode k φ)]
    conv_lhs => rw [heven]
    rw [Spin.sum_two]
    refine Finset.sum_congr rfl fun m _ => ?_
    rw [mode_re]
    unfold Spec.rowPart
    rw [if_pos (by omega), if_neg (by omega), show 2 * m / 2 = m by omega, show (2 * m + 1) / 2 = m by omega]

theorem freq_sum (Nphi : Nat) (he : Nphi % 2 = 0) (hz : mmax Nphi ≠ 0) (f : Int → ℂ) :
    ∑ k ∈ Finset.range Nphi, (if 2 * (Fourier.Spec.freq Nphi k).natAbs < Nphi then f (Fourier.Spec.freq Nphi k) else 0) =
      ∑ m ∈ Finset.Icc (-(mmax Nphi : Int)) (mmax Nphi), f m := by
  have hm : mmax Nphi = (Nphi - 1) / 2 := rfl
  rw [← Finset.sum_filter]
  refine Finset.sum_nbij' (fun k => Fourier.Spec.freq Nphi k) (fun m => if 0 ≤ m then m.toNat else (m + Nphi).toNat) ?_ ?_ ?_ ?_ ?_
  · intro k hk
    rw [Finset.mem_filter, Finset.mem_range] at hk
    rw [Finset.mem_Icc]
    omega
  · intro m hm'
    rw [Finset.mem_Icc] at hm'
    rw [Finset.mem_filter, Finset.mem_range]
    unfold Fourier.Spec.freq
    split
    · rw [if_pos (by omega)]; omega
    · rw [if_neg (by omega)]; omega
  · intro k hk
    rw [Finset.mem_filter, Finset.mem_range] at hk
    unfold Fourier.Spec.freq at *
    split at hk
    · rename_i h1
      rw [if_pos h1, if_pos (by omega)]; omega
    · rename_i h1
      rw [if_neg h1, if_neg (by omega)]; omega
  · intro m hm'
    rw [Finset.mem_Icc] at hm'
    unfold Fourier.Spec.freq
    split
    · rw [if_pos (by omega)]; omega
    · rw [if_neg (by omega)]; omega
  · intro k _
    rfl

theorem azimuth_interp_complex {Nphi : Nat} (hA : PolarField.Spec.Accepted .complex Nphi) {dealias : ℚ} (hd : 1 ≤ dealias) {pos : Fourier.Position} {φ : ℝ}
    (hp : azimuthCov.nativeCoord pos = some φ) (w : Int → ℂ) (u : Nat → ℂ)
    (hu : ∀ j, u j = ∑ m ∈ Finset.Icc (-(mmax Nphi : Int)) (mmax Nphi), Fourier.Spec.mode m (Fourier.Spec.grid (gridSize dealias Nphi) j) * w m) :
    azimuthComplex dealias Nphi pos u = some (∑ m ∈ Finset.Icc (-(mmax Nphi : Int)) (mmax Nphi), Fourier.Spec.mode m φ * w m) := by
  unfold azimuthComplex
  rw [if_pos (rows_size hA dealias), hp, Option.map_some]
  congr 1
  by_cases hm : mmax Nphi = 0
  · have h1 : Nphi = 1 := by
      rcases hA with rfl | ⟨h1, h2⟩
      · rfl
      · unfold mmax at hm; omega
    subst h1
    have hg : gridSize dealias 1 = 1 := rfl
    rw [hg, Finset.sum_range_one, hu, hm]
    have hmo : modes .complex 1 = 1 := rfl
    rw [hmo, Finset.sum_range_one]
    have w0 : wave .complex 1 0 = 0 := rfl
    have p0 : perm .complex 1 0 = 0 := rfl
    have k0 : Fourier.wavenumber 1 0 = 0 := rfl
    simp [fourierComplex, w0, p0, Fourier.forwardMatrix, Fourier.Spec.mode, Fourier.kmax, k0, Fourier.wave]
  · have hAl := accepted_allowed hA
    have hN := gridSize_le hd Nphi
    generalize gridSize dealias Nphi = N at *
    have he := complex_rows Nphi Nphi hAl hm
    have hmo : modes .complex Nphi = Nphi := rfl
    let c : Nat → ℂ := fun r => w (wave .complex Nphi r)
    have hub : ∀ j, u j = azimuthBackwardComplex Nphi N c j := fun j => by
      rw [hu, azimuth_complex Nphi Nphi N hAl hm hN w c (fun r _ => rfl) j]
    rw [hmo, swap_sums]
    have e : ∀ i ∈ Finset.range Nphi, fourierComplex Nphi φ i * ∑ j ∈ Finset.range N, Fourier.forwardMatrix N Nphi (perm .complex Nphi i) j * u j =
        (fun k => if 2 * (Fourier.Spec.freq Nphi k).natAbs < Nphi then
          Fourier.Spec.mode (Fourier.Spec.freq Nphi k) φ * w (Fourier.Spec.freq Nphi k) else 0) (perm .complex Nphi i) := by
      intro i hi
      have hi := Finset.mem_range.1 hi
      have hp := perm_lt .complex Nphi Nphi hAl hm i hi
      have e1 : ∑ j ∈ Finset.range N, Fourier.forwardMatrix N Nphi (perm .complex Nphi i) j * u j =
          azimuthForwardComplex Nphi N (azimuthBackwardComplex Nphi N c) i := by
        unfold azimuthForwardComplex Fourier.forwardMMT
        rw [if_neg hm]
        exact Finset.sum_congr rfl fun j _ => by rw [hub j]
      rw [e1, azimuth_complex_forward Nphi Nphi N hAl hm hN c i hi]
      have hw : wave .complex Nphi i = Fourier.Spec.freq Nphi (perm .complex Nphi i) := by
        unfold wave
        rw [native_freq Nphi _ he hp]
      have hab := Int.abs_eq_natAbs (Fourier.Spec.freq Nphi (perm .complex Nphi i))
      beta_reduce
      show _ * (if _ then w (wave .complex Nphi i) else 0) = _
      unfold fourierComplex
      rw [hw]
      by_cases h1 : 2 * (Fourier.Spec.freq Nphi (perm .complex Nphi i)).natAbs < Nphi
      · rw [if_pos (by omega), if_pos h1]
        unfold Fourier.Spec.mode
        congr 2
        ring
      · rw [if_neg (by omega), if_neg h1, mul_zero]
    rw [Finset.sum_congr rfl e, sum_perm .complex Nphi Nphi hAl hm (fun k => if 2 * (Fourier.Spec.freq Nphi k).natAbs < Nphi then
          Fourier.Spec.mode (Fourier.Spec.freq Nphi k) φ * w (Fourier.Spec.freq Nphi k) else 0)]
    exact freq_sum Nphi he hm fun m => Fourier.Spec.mode m φ * w m

/-! ## Colatitude -/

section
variable {V : Type} [AddCommGroup V] [Module ℝ V]

/-- The loop treats every row separately, with the order of the row. -/
theorem orders_row (d : Dtype) (Nphi Ntheta Ng P p : Nat) (h : Allowed d Nphi Ntheta) (hg : 0 < Ng) (s : Int) (q : Nat → ℝ) (θ : ℝ)
    (maps : List Entry) (hm : sphereMaps d Nphi (lmaxOf d Ntheta) Ng P p = some maps) (g : Nat → Nat → V) (i r : Nat)
    (hr : (sphereGrid d Nphi P p)[i]? = some r) :
    orders maps (lmaxOf d Ntheta) Ng s q θ g i =
      if |wave d Nphi r| ≤ (lmaxOf d Ntheta : Int) then Sphere.interpolate Ng (lmaxOf d Ntheta) (wave d Nphi r) s q θ (g i) else 0 := by
  obtain ⟨maps', hm', ht⟩ := sphere_order_maps d Nphi Ntheta Ng P p h hg
  rw [hm] at hm'
  cases hm'
  generalize lmaxOf d Ntheta = L at *
  let S : Int → List V → Nat → V := fun m _ x => Sphere.interpolate Ng L m s q θ (g x)
  have e : orders maps L Ng s q θ g i = Orders.backward maps L S (fun _ _ => 0) i i := by
    unfold orders Orders.backward
    have : ∀ (l : List Entry), (∀ e ∈ l, e.m.natAbs ≤ L) → ∀ (out : Nat → V) (b : Nat → Nat → V), out i = b i i →
        l.foldl (fun out e => fun i => if e.grid.1 ≤ i ∧ i < e.grid.2 then
          if e.m ≤ (L : Int) then Sphere.interpolate Ng L e.m s q θ (g i) else 0 else out i) out i =
        l.foldl (fun g e => fun i t => if e.grid.1 ≤ i ∧ i < e.grid.2 then
          if |e.m| > (L : Int) then 0
          else S e.m ((List.range (e.cols.2 - e.cols.1)).map fun k => (fun _ _ => (0 : V)) (e.rows.1 + (i - e.grid.1)) (e.col k)) t
          else g i t) b i i := by
      intro l
      induction l with
      | nil => intro _ out b hob; exact hob
      | cons e l ih =>
        intro hl out b hob
        rw [List.foldl_cons, List.foldl_cons]
        refine ih (fun e he => hl e (List.mem_cons_of_mem _ he)) _ _ ?_
        have he := hl e List.mem_cons_self
        have hab := Int.abs_eq_natAbs e.m
        beta_reduce
        rw [if_pos (show e.m ≤ (L : Int) by omega), if_neg (show ¬ |e.m| > (L : Int) by omega), hob]
    exact this maps (fun e he => (ht.widths e he).1) _ _ rfl
  rw [e, ht.backward V S (fun _ _ _ => 0) (fun _ _ => 0) (fun _ _ _ _ _ _ _ _ => rfl) i r i hr]

/-- Interpolation of sums of harmonics. -/
theorem colat_interp (d : Dtype) (Nphi Ntheta Ng P p : Nat) (h : Allowed d Nphi Ntheta) (hg : lmaxOf d Ntheta < Ng) (s : Int) (q : Nat → ℝ)
    (hq : Jacobi.GridGuess Ng 0 0 q) (θ : ℝ) (h0 : 0 < θ) (h1 : θ < Real.pi)
    (maps : List Entry) (hm : sphereMaps d Nphi (lmaxOf d Ntheta) Ng P p = some maps) (b : Nat → V) (g : Nat → Nat → V) (i r : Nat)
    (hr : (sphereGrid d Nphi P p)[i]? = some r)
    (hgd : ∀ x, x < Ng → g i x = ∑ l ∈ Finset.Ico (max (wave d Nphi r).natAbs s.natAbs) (lmaxOf d Ntheta + 1),
        Sphere.Spec.Y l (wave d Nphi r) s (Sphere.grid Ng q x).1 • b l) :
    orders maps (lmaxOf d Ntheta) Ng s q θ g i = ∑ l ∈ Finset.Ico (max (wave d Nphi r).natAbs s.natAbs) (lmaxOf d Ntheta + 1),
        Sphere.Spec.Y l (wave d Nphi r) s (Real.cos θ) • b l := by
  rw [orders_row d Nphi Ntheta Ng P p h (by omega) s q θ maps hm g i r hr]
  have hab := Int.abs_eq_natAbs (wave d Nphi r)
  by_cases hw : |wave d Nphi r| ≤ (lmaxOf d Ntheta : Int)
  · rw [if_pos hw]
    exact Sphere.swsh_interpolate_exact Ng (lmaxOf d Ntheta) (by omega) _ s (by omega) (by omega) q hq (lmaxOf d Ntheta + 1) (by omega) le_rfl b (g i) hgd θ h0 h1
  · rw [if_neg hw, Finset.Ico_eq_empty (by omega), Finset.sum_empty]

end

theorem backward_smul (z : ℂ) : ∀ (fs : List (Option Spin.Mat)) (i : Nat) (u : Spin.Comps) (t : List Nat),
    Spin.backwardComplex i fs (fun t => z * u t) t = z * Spin.backwardComplex i fs u t
  | [], _, _, _ => rfl
  | none :: fs, i, u, t => by simp only [Spin.backwardComplex]; exact backward_smul z fs (i + 1) u t
  | some A :: fs, i, u, t => by
    simp only [Spin.backwardComplex]
    rw [← backward_smul z fs (i + 1)]
    congr 1
    funext t
    simp only [Spin.applyAxis, Finset.mul_sum]
    exact Finset.sum_congr rfl fun _ _ => by ring

section
variable {coord0 coord1 : Spin.Coord} {sig : List Spin.Index} {fs : List (Option Spin.Mat)}

theorem mem_components : ∀ (sig : List Spin.Index) (t : List Nat), t ∈ components sig ↔ Spin.Spec.Component sig t
  | [], t => by simp [components, Spin.Spec.Component, List.forall₂_nil_left_iff]
  | ix :: sig, t => by
    unfold components Spin.Spec.Component
    rw [List.mem_flatMap]
    constructor
    · rintro ⟨x, hx, ht⟩
      obtain ⟨t', ht', rfl⟩ := List.mem_map.1 ht
      exact .cons (List.mem_range.1 hx) ((mem_components sig t').1 ht')
    · intro h
      cases h with
      | cons hx ht => exact ⟨_, List.mem_range.2 hx, List.mem_map.2 ⟨_, (mem_components sig _).2 ht, rfl⟩⟩

/-- The vectors exist if no spin exceeds the largest degree. -/
theorem vectors_exist (d : Dtype) (Nphi Ntheta Ng P p : Nat) (h : Allowed d Nphi Ntheta) (hg : 0 < Ng) (maps : List Entry)
    (hm : sphereMaps d Nphi (lmaxOf d Ntheta) Ng P p = some maps)
    (hs : ∀ t, Spin.Spec.Component sig t → |spinWeight coord1 sig t| ≤ (lmaxOf d Ntheta : Int)) : vectorsExist coord1 sig maps (lmaxOf d Ntheta) = true := by
  obtain ⟨maps', hm', ht⟩ := sphere_order_maps d Nphi Ntheta Ng P p h hg
  rw [hm] at hm'
  cases hm'
  unfold vectorsExist
  rw [List.all_eq_true]
  intro t htc
  rw [List.all_eq_true]
  intro e he
  have h1 := hs t ((mem_components sig t).1 htc)
  have h2 := (ht.widths e he).1
  have hab := Int.abs_eq_natAbs e.m
  unfold Sphere.spin2Jacobi
  simp only [Bool.or_eq_true, decide_eq_true_eq]
  right
  omega

/-- Otherwise they do not. -/
theorem vectors_missing (Nphi Ntheta Ng : Nat) (d : Dtype) (h : Allowed d Nphi Ntheta) (hg : 0 < Ng) (maps : List Entry)
    (hm : sphereMaps d Nphi (lmaxOf d Ntheta) Ng 1 0 = some maps) (t : List Nat) (htc : Spin.Spec.Component sig t)
    (hs : (lmaxOf d Ntheta : Int) < |spinWeight coord1 sig t|) : vectorsExist coord1 sig maps (lmaxOf d Ntheta) = false := by
  obtain ⟨maps', hm', ht⟩ := sphere_order_maps d Nphi Ntheta Ng 1 0 h hg
  rw [hm] at hm'
  cases hm'
  have hne : maps ≠ [] := by
    rintro rfl
    have hpos : 0 < (sphereShape d Nphi (lmaxOf d Ntheta)).1 ∧ 0 < (sphereShape d Nphi (lmaxOf d Ntheta)).2 := by
      unfold sphereShape
      split
      · rename_i hmm
        unfold mmax at hmm
        cases d
        · simp only [Sphere.shapeReal]; omega
        · simp only [Sphere.shapeComplex]; omega
      · cases d <;> simp [Dtype.parts]
    obtain ⟨m, l, -, -, -, e⟩ := ht.forward Nat (fun _ _ _ => 1) (fun _ _ _ => 0) (fun _ _ => 0) (fun _ _ _ => rfl) 0 0 0
      (by rw [rows_one' _ _ _ h, range_get]; exact ⟨hpos.1, rfl⟩) hpos.2
    exact absurd e (by simp [Orders.forward])
  obtain ⟨e, es, rfl⟩ := List.exists_cons_of_ne_nil hne
  unfold vectorsExist
  rw [List.all_eq_false]
  refine ⟨t, (mem_components sig t).2 htc, ?_⟩
  rw [Bool.not_eq_true, List.all_eq_false]
  refine ⟨e, List.mem_cons_self, ?_⟩
  have h2 := (ht.widths e List.mem_cons_self).1
  have hab := Int.abs_eq_natAbs e.m
  unfold Sphere.spin2Jacobi
  simp only [Bool.or_eq_true, decide_eq_true_eq, Bool.not_eq_true', decide_eq_false_iff_not]
  omega

theorem colatitude_real (h : Spin.Spec.Suitable coord0 coord1 sig) (hf : Spin.factors coord1 sig = some fs) (Nphi Ntheta Ng : Nat)
    (hA : Allowed .real Nphi Ntheta) (hg : lmaxOf .real Ntheta < Ng) (q : Nat → ℝ)
    (hq : Jacobi.GridGuess Ng 0 0 q) (θ : ℝ) (h0 : 0 < θ) (h1 : θ < Real.pi) (maps : List Entry)
    (hm : sphereMaps .real Nphi (lmaxOf .real Ntheta) Ng 1 0 = some maps)
    (hv : vectorsExist coord1 sig maps (lmaxOf .real Ntheta) = true) (a : List Nat → Int → Int → ℂ) (z : ℂ) (g : List Nat → Nat → Nat → ℝ)
    (hgd : ∀ t, Spin.Spec.Component sig t → ∀ r x, r < sphereGridRows .real Nphi → x < Ng → g t r x =
        Spec.rowPart (z * Spec.part fs (spinWeight coord1 sig) (lmaxOf .real Ntheta) a (wave .real Nphi r) (Sphere.grid Ng q x).1 t) r) :
    ∃ o, colatitudeReal coord0 coord1 sig fs maps (lmaxOf .real Ntheta) Ng (sphereGridRows .real Nphi) q θ g = some o ∧
      ∀ t, Spin.Spec.Component sig t → ∀ r, r < sphereGridRows .real Nphi →
        o t r 0 = Spec.rowPart (z * Spec.part fs (spinWeight coord1 sig) (lmaxOf .real Ntheta) a (wave .real Nphi r) (Real.cos θ) t) r := by
  have hrows := real_rows Nphi Ntheta hA
  unfold colatitudeReal
  obtain ⟨o, ho, hov⟩ := real_forward h hf Ng hrows.1 g
  rw [ho, Option.bind_some, if_pos hv]
  have hwv : ∀ r, r < sphereGridRows .real Nphi → wave .real Nphi (2 * (r / 2)) = wave .real Nphi r := by
    intro r hr
    have : r = 2 * (r / 2) ∨ r = 2 * (r / 2) + 1 := by omega
    rcases this with hr2 | hr2
    · rw [← hr2]
    · conv_rhs => rw [hr2]
      exact (hrows.2.2 _ (by omega)).symm
  have key : ∀ t, Spin.Spec.Component sig t → ∀ r x, r < sphereGridRows .real Nphi → x < Ng → unflatten (sphereGridRows .real Nphi) o t r x =
      Spec.rowPart (z * Spec.spinPart (spinWeight coord1 sig) (lmaxOf .real Ntheta) a (wave .real Nphi r) (Sphere.grid Ng q x).1 t) r := by
    intro t ht r x hr hx
    have e := hov t ht (r / 2) x (by omega) hx
    have hw := hwv r hr
    rw [SphereField.forward_congr h hf _ (fun t => z * Spin.backwardComplex 0 fs (Spec.spinPart (spinWeight coord1 sig) (lmaxOf .real Ntheta) a
        (wave .real Nphi r) (Sphere.grid Ng q x).1) t)
      (fun t ht => by
        rw [hgd t ht _ x (by omega) hx, hgd t ht _ x (by omega) hx, hrows.2.2 _ (by omega), row_pair, hw]
        rfl) t ht, forward_smul, forward_backward h hf _ t ht] at e
    exact pair_row (y := fun r => unflatten (sphereGridRows .real Nphi) o t r x) e r rfl
  have key2 : ∀ t, Spin.Spec.Component sig t → ∀ r, r < sphereGridRows .real Nphi →
      orders maps (lmaxOf .real Ntheta) Ng (spinWeight coord1 sig t) q θ (unflatten (sphereGridRows .real Nphi) o t) r =
        Spec.rowPart (z * Spec.spinPart (spinWeight coord1 sig) (lmaxOf .real Ntheta) a (wave .real Nphi r) (Real.cos θ) t) r := by
    intro t ht r hr
    have hsum : ∀ y : ℝ, Spec.rowPart (z * Spec.spinPart (spinWeight coord1 sig) (lmaxOf .real Ntheta) a (wave .real Nphi r) y t) r =
        ∑ l ∈ Finset.Ico (max (wave .real Nphi r).natAbs (spinWeight coord1 sig t).natAbs) (lmaxOf .real Ntheta + 1),
          Sphere.Spec.Y l (wave .real Nphi r) (spinWeight coord1 sig t) y • Spec.rowPart (z * a t (wave .real Nphi r) l) r := by
      intro y
      unfold Spec.spinPart
      rw [Finset.mul_sum]
      unfold Spec.rowPart
      split
      · rw [Complex.re_sum]
        exact Finset.sum_congr rfl fun l _ => by rw [mul_left_comm, Complex.re_ofReal_mul, smul_eq_mul]
      · rw [Complex.im_sum]
        exact Finset.sum_congr rfl fun l _ => by rw [mul_left_comm, Complex.im_ofReal_mul, smul_eq_mul]
    rw [hsum]
    exact colat_interp .real Nphi Ntheta Ng 1 0 hA hg (spinWeight coord1 sig t) q hq θ h0 h1 maps hm
      (fun l => Spec.rowPart (z * a t (wave .real Nphi r) l) r) _ r r (by rw [grid_one _ _ _ hA, range_get]; exact ⟨hr, rfl⟩)
      (fun x hx => by rw [key t ht r x hr hx, hsum])
  obtain ⟨o2, ho2, hov2⟩ := real_backward h hf 1 hrows.1 (fun t (i : Nat) (_ : Nat) =>
    orders maps (lmaxOf .real Ntheta) Ng (spinWeight coord1 sig t) q θ (unflatten (sphereGridRows .real Nphi) o t) i)
  simp only [ho2, Option.map_some]
  refine ⟨_, rfl, fun t ht r hr => ?_⟩
  have e := hov2 t ht (r / 2) 0 (by omega) (by omega)
  have hw := hwv r hr
  rw [backward_congr h hf _ (fun t => z * Spec.spinPart (spinWeight coord1 sig) (lmaxOf .real Ntheta) a (wave .real Nphi r) (Real.cos θ) t)
    (fun t ht => by
      rw [key2 t ht _ (by omega), key2 t ht _ (by omega), hrows.2.2 _ (by omega), row_pair, hw]) t ht, backward_smul] at e
  exact pair_row (y := fun r => unflatten (sphereGridRows .real Nphi) o2 t r 0) e r rfl

theorem colatitude_complex (h : Spin.Spec.Suitable coord0 coord1 sig) (hf : Spin.factors coord1 sig = some fs) (Nphi Ntheta Ng : Nat)
    (hA : Allowed .complex Nphi Ntheta) (hg : lmaxOf .complex Ntheta < Ng) (q : Nat → ℝ)
    (hq : Jacobi.GridGuess Ng 0 0 q) (θ : ℝ) (h0 : 0 < θ) (h1 : θ < Real.pi) (maps : List Entry)
    (hm : sphereMaps .complex Nphi (lmaxOf .complex Ntheta) Ng 1 0 = some maps)
    (hv : vectorsExist coord1 sig maps (lmaxOf .complex Ntheta) = true) (a : List Nat → Int → Int → ℂ) (g : List Nat → Nat → Nat → ℂ)
    (hgd : ∀ t, Spin.Spec.Component sig t → ∀ r x, r < sphereGridRows .complex Nphi → x < Ng →
      g t r x = Spec.part fs (spinWeight coord1 sig) (lmaxOf .complex Ntheta) a (wave .complex Nphi r) (Sphere.grid Ng q x).1 t) :
    ∃ o, colatitudeComplex coord1 sig fs maps (lmaxOf .complex Ntheta) Ng q θ g = some o ∧
      ∀ t, Spin.Spec.Component sig t → ∀ r, r < sphereGridRows .complex Nphi → o t r 0 = Spec.part fs (spinWeight coord1 sig) (lmaxOf .complex Ntheta) a (wave .complex Nphi r) (Real.cos θ) t := by
  unfold colatitudeComplex
  rw [if_pos hv]
  refine ⟨_, rfl, fun t ht r hr => ?_⟩
  unfold Spec.part
  refine backward_congr h hf _ _ (fun t ht => ?_) t ht
  have hsum : ∀ y : ℝ, Spec.spinPart (spinWeight coord1 sig) (lmaxOf .complex Ntheta) a (wave .complex Nphi r) y t =
      ∑ l ∈ Finset.Ico (max (wave .complex Nphi r).natAbs (spinWeight coord1 sig t).natAbs) (lmaxOf .complex Ntheta + 1),
        Sphere.Spec.Y l (wave .complex Nphi r) (spinWeight coord1 sig t) y • a t (wave .complex Nphi r) l := by
    intro y
    unfold Spec.spinPart
    exact Finset.sum_congr rfl fun l _ => by rw [Complex.real_smul]
  rw [hsum]
  refine colat_interp .complex Nphi Ntheta Ng 1 0 hA hg (spinWeight coord1 sig t) q hq θ h0 h1 maps hm
    (fun l => a t (wave .complex Nphi r) l) _ r r (by rw [grid_one _ _ _ hA, range_get]; exact ⟨hr, rfl⟩) (fun x hx => ?_)
  beta_reduce
  rw [← hsum, SphereField.forward_congr h hf _ (Spin.backwardComplex 0 fs (Spec.spinPart (spinWeight coord1 sig) (lmaxOf .complex Ntheta) a (wave .complex Nphi r)
    (Sphere.grid Ng q x).1)) (fun t ht => hgd t ht r x hr hx) t ht, forward_backward h hf _ t ht]

end

end Dedalus.Interp
