import Verif.Hermitian.Model
import Verif.Hermitian.Volume
import Verif.Modes.Props
import Mathlib.Data.Nat.Periodic

/-! Properties of enforcing Hermitian symmetry. -/

namespace Dedalus.Hermitian
open Orders SphereField
open PolarField.Spec (Accepted)

/-! ## The cadence -/

theorem due_periodic (k steps : Nat) : Function.Periodic (fun i => due (some k) steps i = true) k := by
  intro i
  unfold due
  simp

theorem due_count (k steps : Nat) (hk : 0 < k) : ∀ n, n ≤ k → Nat.count (fun i => due (some k) steps i = true) n = min steps n
  | 0, _ => by simp
  | n + 1, h => by
    rw [Nat.count_succ, due_count k steps hk n (by omega)]
    unfold due
    simp only [if_neg (Nat.pos_iff_ne_zero.1 hk), decide_eq_true_eq, Nat.mod_eq_of_lt (show n < k by omega)]
    split <;> omega

theorem run_counts (c : Option Nat) (steps : Nat) : ∀ (n i e : Nat),
    run (fun _ => id) (· + 1) c steps n ⟨i, e⟩ = ⟨i + n, e + ((Finset.Ico i (i + n)).filter fun i => due c steps i = true).card⟩
  | 0, i, e => by simp [run]
  | n + 1, i, e => by
    rw [run]
    unfold step
    simp only [id]
    rw [run_counts c steps n (i + 1)]
    have hI : Finset.Ico i (i + (n + 1)) = insert i (Finset.Ico (i + 1) (i + 1 + n)) := by
      ext x
      simp only [Finset.mem_Ico, Finset.mem_insert]
      omega
    rw [hI, Finset.filter_insert]
    by_cases hd : due c steps i = true
    · rw [if_pos hd, if_pos hd, Finset.card_insert_of_notMem (by simp)]
      simp only [Solver.mk.injEq]
      omega
    · rw [if_neg hd, if_neg hd]
      simp only [Solver.mk.injEq, and_true]
      omega

/-- C104: in any `k` consecutive iterations of a real solver with cadence `k`, the symmetry is enforced in as many as the timestepper has steps, or in all
of them if there are fewer. -/
theorem enforced_per_cadence (k steps : Nat) (hk : 0 < k) (start : Nat) :
    (run (fun _ => id) (· + 1) (cadence true k) steps k ⟨start, 0⟩).state = min steps k := by
  rw [run_counts]
  unfold cadence
  rw [if_pos rfl, Nat.filter_Ico_card_eq_of_periodic start k _ (due_periodic k steps), due_count k steps hk k le_rfl, Nat.zero_add]

/-- C104: the first iterations of every period are those that are enforced, with data the timestepper has advanced already. -/
theorem enforced_when {State : Type} (advance enforce : State → State) (k steps : Nat) (hk : 0 < k) (p o : Nat) (ho : o < k) (x : State) :
    step advance enforce (cadence true k) steps ⟨p * k + o, x⟩ = ⟨p * k + o + 1, if o < steps then enforce (advance x) else advance x⟩ := by
  unfold step cadence due
  simp only [if_true, if_neg (Nat.pos_iff_ne_zero.1 hk), decide_eq_true_eq]
  rw [Nat.mul_comm p k, Nat.mul_add_mod, Nat.mod_eq_of_lt ho]

/-- C104: with complex data or a cadence of zero a run is that of the timestepper alone. -/
theorem never_enforced {State : Type} (advance : Nat → State → State) (enforce : State → State) (real : Bool) (k steps : Nat) (h : real = false ∨ k = 0) :
    ∀ (n : Nat) (s : Solver State), run advance enforce (cadence real k) steps n s = run advance id (cadence true 1) steps n s
  | 0, _ => rfl
  | n + 1, s => by
    have hd : ∀ i, due (cadence real k) steps i = false := by
      intro i
      unfold due cadence
      rcases h with rfl | rfl
      · rfl
      · cases real <;> rfl
    rw [run, run, never_enforced advance enforce real k steps h n]
    congr 1
    unfold step
    simp [hd]

/-- C104: if the timestepper has at least as many steps as the cadence, every state after a step has been enforced. -/
theorem always_enforced {State : Type} (advance : Nat → State → State) (enforce : State → State) (k steps : Nat) (hk : 0 < k) (hs : k ≤ steps)
    (P : State → Prop) (hP : ∀ x, P (enforce x)) : ∀ (n : Nat) (s : Solver State), P (run advance enforce (cadence true k) steps (n + 1) s).state
  | 0, s => by
    have := Nat.mod_lt s.iteration hk
    rw [run, run]
    unfold step due cadence
    simp only [if_true, if_neg (Nat.pos_iff_ne_zero.1 hk), decide_eq_true_eq]
    rw [if_pos (by omega)]
    exact hP _
  | n + 1, s => by
    rw [run]
    exact always_enforced advance enforce k steps hk hs P hP n _

/-! ## The Hermitian part -/

section
variable {coord0 coord1 : Spin.Coord} {sig : List Spin.Index}

/-- Taking the Hermitian part twice is taking it once, for signs that a component and its partner share. -/
theorem hermitian_twice (h : Spin.Spec.Suitable coord0 coord1 sig) (e : ℝ) (he : e * e = 1) (c : List Nat → Nat → ℝ) (t : List Nat)
    (ht : Spin.Spec.Component sig t) (row : Nat) :
    Spec.hermitian coord0 coord1 sig e (fun t row => Spec.hermitian coord0 coord1 sig e c t row) t row = Spec.hermitian coord0 coord1 sig e c t row := by
  unfold Spec.hermitian
  beta_reduce
  rw [(partner_component h ht).2.1]
  split <;> linear_combination (1 / 4) * c t row * he

/-- The Hermitian part of a scalar has no imaginary part. -/
theorem hermitian_scalar (coord0 coord1 : Spin.Coord) (c : List Nat → Nat → ℝ) (row : Nat) :
    Spec.hermitian coord0 coord1 [] 1 c [] row = if row % 2 = 0 then c [] row else 0 := by
  unfold Spec.hermitian Spec.partner
  simp only [List.zipWith_nil_left]
  split <;> ring

/-- The Hermitian part of a vector of the plane: the two spin components become complex conjugates of each other. -/
theorem hermitian_vector (phi rad : Spin.Coord) (h0 : phi.azimuthal = true) (h1 : rad.azimuthal = false) (e : ℝ) (c : List Nat → Nat → ℝ) (row : Nat) :
    Spec.hermitian phi rad [.single (.polar phi rad)] e c [0] row = (if row % 2 = 0 then c [0] row + e * c [1] row else c [0] row - e * c [1] row) / 2 ∧
      Spec.hermitian phi rad [.single (.polar phi rad)] e c [1] row = (if row % 2 = 0 then c [1] row + e * c [0] row else c [1] row - e * c [0] row) / 2 := by
  have i0 : Spin.indexOf phi (Spin.Index.single (.polar phi rad)).coords = some 0 := by
    simp [Spin.indexOf, Spin.Index.coords, Spin.Cs.coords, List.findIdx?_cons, Spin.Coord.eq]
  have i1 : Spin.indexOf rad (Spin.Index.single (.polar phi rad)).coords = some (0 + 1) := by
    simp [Spin.indexOf, Spin.Index.coords, Spin.Cs.coords, List.findIdx?_cons, Spin.Coord.eq, h0, h1]
  unfold Spec.hermitian Spec.partner
  simp only [List.zipWith_cons_cons, List.zipWith_nil_left, opposite_some _ i0 i1]
  constructor <;> split <;> simp_all

/-! ## Disk -/

theorem disk_all (before : Bool) (h : Spin.Spec.Suitable coord0 coord1 sig) (Nphi Nr N Ng k : Nat) (alpha : ℝ) (hA : Accepted .real Nphi)
    (hN : Nphi ≤ N) (hr : Nphi < 4 * Nr) (hg : 0 < Ng) (ha : -1 < alpha) (q : Nat → ℝ) (hq : Jacobi.GridGuess Ng alpha 0 q) (c : List Nat → Nat → Nat → ℝ) :
    ∃ u c' u', PolarField.diskToGridReal coord0 coord1 sig Nphi Nr k alpha N Ng q c = some u ∧
      enforceDisk before coord0 coord1 sig Nphi Nr k alpha N Ng q c = some c' ∧
      (∀ t, Spin.Spec.Component sig t → ∀ i n, i < polarRows .real Nphi → n < Nr →
        c' t i n = if (wave .real Nphi i).natAbs / 2 ≤ n ∧
            (wave .real Nphi i + spinWeight coord1 sig t).natAbs + 2 * (n - (wave .real Nphi i).natAbs / 2) < 2 * Ng then
          (if wave .real Nphi i = 0 then Spec.hermitian coord0 coord1 sig 1 (fun t i => c t i n) t i else c t i n) else 0) ∧
      PolarField.diskToGridReal coord0 coord1 sig Nphi Nr k alpha N Ng q c' = some u' ∧
      ∀ t, Spin.Spec.Component sig t → ∀ j x, x < Ng → u' t j x = u t j x := by
  obtain ⟨maps, hm, -⟩ := PolarField.disk_rows hA Nr Ng hr hg
  obtain ⟨u, c', u', hu, hc', hv, hu', hv'⟩ := polar_project h hA N Nr Ng hN (fun t => PolarField.diskBackward maps Ng Nr k alpha q (spinWeight coord1 sig t))
    (fun t => PolarField.diskForward before maps Ng Nr k alpha q (spinWeight coord1 sig t)) (fun _ => 1) (fun _ => 1)
    (Zernike.radiusGrid 2 Ng alpha q) (PolarField.lowMode Nr Ng (alpha + k))
    (fun s n r => by
      unfold PolarField.lowMode PolarField.Spec.diskMode
      simp only [zero_add, Int.natAbs_neg])
    (PolarField.kept Nr Ng) (fun t _ c i x hi hx => by
      rw [mul_one, PolarField.disk_back hA Nr Ng hr hg maps hm k alpha ha q hq _ _ i x hi hx]
      rfl)
    (fun t _ u b hub i n hi hn => PolarField.disk_forw before hA Nr Ng hr hg maps hm k alpha ha q hq _ u b i hi (fun x hx => by
      rw [hub i x hi hx, mul_one]
      rfl) n hn)
    (fun s m n r hk => by
      unfold PolarField.lowMode PolarField.Spec.diskMode
      unfold PolarField.kept at hk
      split
      · rename_i h1
        rw [if_neg fun e => hk ⟨h1, e⟩]
      · rfl) c
  refine ⟨u, c', u', ?_, ?_, fun t ht i n hi hn => ?_, ?_, hv'⟩
  · unfold PolarField.diskToGridReal
    rw [hm]
    exact hu
  · unfold enforceDisk PolarField.diskToGridReal PolarField.diskToCoeffReal
    rw [hm]
    simp only [Option.bind_some]
    rw [hu]
    exact hc'
  · rw [hv t ht i n hi hn]
    have hw : |wave .real Nphi i| ≤ ((2 * (Nr - 1) : Nat) : Int) := by
      by_cases hz : mmax Nphi = 0
      · have h1 : Nphi = 1 := by
          unfold mmax at hz
          rcases hA with h1 | ⟨h1, _⟩ <;> omega
        subst h1
        rw [wave_zero_real 1 rfl i (by exact hi)]
        simp
      · have hi' : i < Nphi := by
          unfold mmax at hz
          have : polarRows .real Nphi = if Nphi > 1 then Nphi else 2 := rfl
          rw [if_pos (by omega)] at this
          omega
        have h1 := PolarField.mmax_le hA hr
        have h2 := perm_lt .real Nphi Nphi hA.allowed hz i hi'
        unfold mmax at h1
        rw [real_wave_perm, Int.abs_eq_natAbs]
        omega
    refine if_congr ⟨fun e => e.2, fun e => ⟨hw, e⟩⟩ rfl rfl
  · unfold PolarField.diskToGridReal
    rw [hm]
    exact hu'

/-- C104: enforcement of a real tensor field in the disk, for any coefficients. Those of order zero are replaced by their Hermitian part, the others are
unchanged, and those of radial functions that the grid does not keep are cleared. -/
theorem enforce_disk_partial (before : Bool) (h : Spin.Spec.Suitable coord0 coord1 sig) (Nphi Nr N Ng k : Nat) (alpha : ℝ) (hA : Accepted .real Nphi)
    (hN : Nphi ≤ N) (hr : Nphi < 4 * Nr) (hg : 0 < Ng) (ha : -1 < alpha) (q : Nat → ℝ) (hq : Jacobi.GridGuess Ng alpha 0 q) (c : List Nat → Nat → Nat → ℝ) :
    ∃ c', enforceDisk before coord0 coord1 sig Nphi Nr k alpha N Ng q c = some c' ∧
      ∀ t, Spin.Spec.Component sig t → ∀ i n, i < polarRows .real Nphi → n < Nr →
        c' t i n = if (wave .real Nphi i).natAbs / 2 ≤ n ∧
            (wave .real Nphi i + spinWeight coord1 sig t).natAbs + 2 * (n - (wave .real Nphi i).natAbs / 2) < 2 * Ng then
          (if wave .real Nphi i = 0 then Spec.hermitian coord0 coord1 sig 1 (fun t i => c t i n) t i else c t i n) else 0 := by
  obtain ⟨_, c', _, _, hc', hv, -⟩ := disk_all before h Nphi Nr N Ng k alpha hA hN hr hg ha q hq c
  exact ⟨c', hc', hv⟩

/-- C104: enforcement in the disk does not change the values of the field on the grid. -/
theorem enforce_disk_values (before : Bool) (h : Spin.Spec.Suitable coord0 coord1 sig) (Nphi Nr N Ng k : Nat) (alpha : ℝ) (hA : Accepted .real Nphi)
    (hN : Nphi ≤ N) (hr : Nphi < 4 * Nr) (hg : 0 < Ng) (ha : -1 < alpha) (q : Nat → ℝ) (hq : Jacobi.GridGuess Ng alpha 0 q) (c c' : List Nat → Nat → Nat → ℝ)
    (hc' : enforceDisk before coord0 coord1 sig Nphi Nr k alpha N Ng q c = some c') :
    ∃ u u', PolarField.diskToGridReal coord0 coord1 sig Nphi Nr k alpha N Ng q c = some u ∧
      PolarField.diskToGridReal coord0 coord1 sig Nphi Nr k alpha N Ng q c' = some u' ∧
      ∀ t, Spin.Spec.Component sig t → ∀ j x, x < Ng → u' t j x = u t j x := by
  obtain ⟨u, c1, u', hu, hc1, -, hu', hv⟩ := disk_all before h Nphi Nr N Ng k alpha hA hN hr hg ha q hq c
  rw [hc'] at hc1
  cases hc1
  exact ⟨u, u', hu, hu', hv⟩

/-- C104: enforcement in the disk is a projection. -/
theorem enforce_disk_twice (before : Bool) (h : Spin.Spec.Suitable coord0 coord1 sig) (Nphi Nr N Ng k : Nat) (alpha : ℝ) (hA : Accepted .real Nphi)
    (hN : Nphi ≤ N) (hr : Nphi < 4 * Nr) (hg : 0 < Ng) (ha : -1 < alpha) (q : Nat → ℝ) (hq : Jacobi.GridGuess Ng alpha 0 q) (c c' : List Nat → Nat → Nat → ℝ)
    (hc' : enforceDisk before coord0 coord1 sig Nphi Nr k alpha N Ng q c = some c') :
    ∃ c'', enforceDisk before coord0 coord1 sig Nphi Nr k alpha N Ng q c' = some c'' ∧
      ∀ t, Spin.Spec.Component sig t → ∀ i n, i < polarRows .real Nphi → n < Nr → c'' t i n = c' t i n := by
  obtain ⟨c1, hc1, hv⟩ := enforce_disk_partial before h Nphi Nr N Ng k alpha hA hN hr hg ha q hq c
  rw [hc'] at hc1
  cases hc1
  obtain ⟨c2, hc2, hw⟩ := enforce_disk_partial before h Nphi Nr N Ng k alpha hA hN hr hg ha q hq c'
  refine ⟨c2, hc2, fun t ht i n hi hn => ?_⟩
  rw [hw t ht i n hi hn]
  by_cases hk : (wave .real Nphi i).natAbs / 2 ≤ n ∧
      (wave .real Nphi i + spinWeight coord1 sig t).natAbs + 2 * (n - (wave .real Nphi i).natAbs / 2) < 2 * Ng
  · rw [if_pos hk]
    by_cases hz : wave .real Nphi i = 0
    · rw [if_pos hz]
      obtain ⟨p1, p2, p3⟩ := partner_component h ht
      have e1 : ∀ t', (t' = t ∨ t' = Spec.partner coord0 coord1 sig t) → c' t' i n = Spec.hermitian coord0 coord1 sig 1 (fun t i => c t i n) t' i := by
        rintro t' (rfl | rfl)
        · rw [hv _ ht i n hi hn, if_pos hk, if_pos hz]
        · rw [hv _ p1 i n hi hn, if_pos, if_pos hz]
          rw [hz] at hk
          rw [p3, hz]
          simpa using hk
      have e2 : Spec.hermitian coord0 coord1 sig 1 (fun t i => c' t i n) t i = Spec.hermitian coord0 coord1 sig 1
          (fun t row => Spec.hermitian coord0 coord1 sig 1 (fun t i => c t i n) t row) t i := by
        conv_lhs => unfold Spec.hermitian
        conv_rhs => rw [Spec.hermitian]
        simp only [e1 t (.inl rfl), e1 _ (.inr rfl)]
      rw [e2, hermitian_twice h 1 (by norm_num) _ t ht i, e1 t (.inl rfl)]
    · rw [if_neg hz]
  · rw [if_neg hk, hv t ht i n hi hn, if_neg hk]

/-- C104: for a scalar in the disk, with at least as many radii as radial coefficients, enforcement clears the sine row of order zero and nothing else. -/
theorem enforce_disk_scalar (before : Bool) (h0 : coord0.azimuthal = true) (h1 : coord1.azimuthal = false) (Nphi Nr N Ng k : Nat) (alpha : ℝ)
    (hA : Accepted .real Nphi) (hN : Nphi ≤ N) (hr : Nphi < 4 * Nr) (hg : Nr ≤ Ng) (ha : -1 < alpha) (q : Nat → ℝ) (hq : Jacobi.GridGuess Ng alpha 0 q)
    (c : List Nat → Nat → Nat → ℝ) (hc : ∀ i n, i < polarRows .real Nphi → n < (wave .real Nphi i).natAbs / 2 → c [] i n = 0) :
    ∃ c', enforceDisk before coord0 coord1 [] Nphi Nr k alpha N Ng q c = some c' ∧
      ∀ i n, i < polarRows .real Nphi → n < Nr → c' [] i n = if wave .real Nphi i = 0 ∧ i % 2 = 1 then 0 else c [] i n := by
  obtain ⟨c', hc', hv⟩ := enforce_disk_partial (coord0 := coord0) (coord1 := coord1) (sig := []) before ⟨h0, h1, by simp⟩ Nphi Nr N Ng k alpha hA hN hr (by omega) ha q hq c
  refine ⟨c', hc', fun i n hi hn => ?_⟩
  rw [hv [] .nil i n hi hn, hermitian_scalar]
  have hs : spinWeight coord1 [] [] = 0 := rfl
  by_cases hk : (wave .real Nphi i).natAbs / 2 ≤ n
  · rw [if_pos ⟨hk, by rw [hs]; omega⟩]
    by_cases hz : wave .real Nphi i = 0
    · rw [if_pos hz]
      by_cases hp : i % 2 = 0
      · rw [if_pos hp, if_neg (by omega)]
      · rw [if_neg hp, if_pos ⟨hz, by omega⟩]
    · rw [if_neg hz, if_neg fun e => hz e.1]
  · rw [if_neg fun e => hk e.1, hc i n hi (by omega)]
    split <;> rfl

/-! ## Annulus -/

theorem annulus_all (before : Bool) (h : Spin.Spec.Suitable coord0 coord1 sig) (Nphi Nr N Ng k : Nat) (rin rout : ℝ) (h0 : 0 < rin)
    (h1 : rin < rout) (alpha : ℝ × ℝ) (hA : Accepted .real Nphi) (hN : Nphi ≤ N) (hg : 0 < Ng) (ha : -1 < alpha.1) (hb : -1 < alpha.2) (q : Nat → ℝ)
    (hq : Jacobi.GridGuess Ng alpha.1 alpha.2 q) (c : List Nat → Nat → Nat → ℝ) :
    ∃ u c' u', PolarField.annulusToGridReal coord0 coord1 sig rin rout Nphi Nr k alpha N Ng q c = some u ∧
      enforceAnnulus before coord0 coord1 sig rin rout Nphi Nr k alpha N Ng q c = some c' ∧
      (∀ t, Spin.Spec.Component sig t → ∀ i n, i < polarRows .real Nphi → n < Nr →
        c' t i n = if n < Ng then (if wave .real Nphi i = 0 then Spec.hermitian coord0 coord1 sig 1 (fun t i => c t i n) t i else c t i n) else 0) ∧
      PolarField.annulusToGridReal coord0 coord1 sig rin rout Nphi Nr k alpha N Ng q c' = some u' ∧
      ∀ t, Spin.Spec.Component sig t → ∀ j x, x < Ng → u' t j x = u t j x := by
  obtain ⟨F, hF⟩ := (Jacobi.matrix_forward_possible before Ng Nr (alpha.1 + k) (alpha.2 + k) alpha.1 alpha.2 q).2 ⟨k, k, rfl, rfl⟩
  obtain ⟨u, c', u', hu, hc', hv, hu', hv'⟩ := polar_project h hA N Nr Ng hN (fun _ => PolarField.annulusBackward Ng Nr k alpha q)
    (fun _ => PolarField.annulusForward Ng F) (PolarField.factor rin rout alpha Ng k q k) (PolarField.factor rin rout alpha Ng k q (-k))
    (Shell.radiusGrid rin rout alpha Ng q) (fun _ _ => PolarField.Spec.annulusMode Ng rin rout alpha k) (fun _ _ _ => rfl) (fun _ _ n => n < Ng)
    (fun t _ c i x hi hx => by
      rw [mul_comm]
      exact PolarField.annulus_back rin rout h1 alpha ha hb Ng Nr k q hq (c t) i x hx)
    (fun t _ u b hub i n hi hn => PolarField.annulus_forw before rin rout h0 h1 alpha ha hb Ng Nr k hg q hq F hF u b i (fun x hx => by
      rw [hub i x hi hx, mul_comm]
      rfl) n hn)
    (fun s m n r hk => by
      unfold PolarField.Spec.annulusMode
      rw [if_neg hk]) c
  refine ⟨u, c', u', hu, ?_, hv, hu', hv'⟩
  unfold enforceAnnulus PolarField.annulusToCoeffReal
  rw [hF]
  have : PolarField.annulusToGridReal coord0 coord1 sig rin rout Nphi Nr k alpha N Ng q c = some u := hu
  rw [this]
  exact hc'

/-- C104: enforcement of a real tensor field in the annulus, for any coefficients. -/
theorem enforce_annulus_partial (before : Bool) (h : Spin.Spec.Suitable coord0 coord1 sig) (Nphi Nr N Ng k : Nat) (rin rout : ℝ) (h0 : 0 < rin)
    (h1 : rin < rout) (alpha : ℝ × ℝ) (hA : Accepted .real Nphi) (hN : Nphi ≤ N) (hg : 0 < Ng) (ha : -1 < alpha.1) (hb : -1 < alpha.2) (q : Nat → ℝ)
    (hq : Jacobi.GridGuess Ng alpha.1 alpha.2 q) (c : List Nat → Nat → Nat → ℝ) :
    ∃ c', enforceAnnulus before coord0 coord1 sig rin rout Nphi Nr k alpha N Ng q c = some c' ∧
      ∀ t, Spin.Spec.Component sig t → ∀ i n, i < polarRows .real Nphi → n < Nr →
        c' t i n = if n < Ng then (if wave .real Nphi i = 0 then Spec.hermitian coord0 coord1 sig 1 (fun t i => c t i n) t i else c t i n) else 0 := by
  obtain ⟨_, c', _, _, hc', hv, -⟩ := annulus_all before h Nphi Nr N Ng k rin rout h0 h1 alpha hA hN hg ha hb q hq c
  exact ⟨c', hc', hv⟩

/-- C104: enforcement in the annulus does not change the values of the field on the grid. -/
theorem enforce_annulus_values (before : Bool) (h : Spin.Spec.Suitable coord0 coord1 sig) (Nphi Nr N Ng k : Nat) (rin rout : ℝ) (h0 : 0 < rin)
    (h1 : rin < rout) (alpha : ℝ × ℝ) (hA : Accepted .real Nphi) (hN : Nphi ≤ N) (hg : 0 < Ng) (ha : -1 < alpha.1) (hb : -1 < alpha.2) (q : Nat → ℝ)
    (hq : Jacobi.GridGuess Ng alpha.1 alpha.2 q) (c c' : List Nat → Nat → Nat → ℝ)
    (hc' : enforceAnnulus before coord0 coord1 sig rin rout Nphi Nr k alpha N Ng q c = some c') :
    ∃ u u', PolarField.annulusToGridReal coord0 coord1 sig rin rout Nphi Nr k alpha N Ng q c = some u ∧
      PolarField.annulusToGridReal coord0 coord1 sig rin rout Nphi Nr k alpha N Ng q c' = some u' ∧
      ∀ t, Spin.Spec.Component sig t → ∀ j x, x < Ng → u' t j x = u t j x := by
  obtain ⟨u, c1, u', hu, hc1, -, hu', hv⟩ := annulus_all before h Nphi Nr N Ng k rin rout h0 h1 alpha hA hN hg ha hb q hq c
  rw [hc'] at hc1
  cases hc1
  exact ⟨u, u', hu, hu', hv⟩

/-- C104: enforcement in the annulus is a projection. -/
theorem enforce_annulus_twice (before : Bool) (h : Spin.Spec.Suitable coord0 coord1 sig) (Nphi Nr N Ng k : Nat) (rin rout : ℝ) (h0 : 0 < rin)
    (h1 : rin < rout) (alpha : ℝ × ℝ) (hA : Accepted .real Nphi) (hN : Nphi ≤ N) (hg : 0 < Ng) (ha : -1 < alpha.1) (hb : -1 < alpha.2) (q : Nat → ℝ)
    (hq : Jacobi.GridGuess Ng alpha.1 alpha.2 q) (c c' : List Nat → Nat → Nat → ℝ)
    (hc' : enforceAnnulus before coord0 coord1 sig rin rout Nphi Nr k alpha N Ng q c = some c') :
    ∃ c'', enforceAnnulus before coord0 coord1 sig rin rout Nphi Nr k alpha N Ng q c' = some c'' ∧
      ∀ t, Spin.Spec.Component sig t → ∀ i n, i < polarRows .real Nphi → n < Nr → c'' t i n = c' t i n := by
  obtain ⟨c1, hc1, hv⟩ := enforce_annulus_partial before h Nphi Nr N Ng k rin rout h0 h1 alpha hA hN hg ha hb q hq c
  rw [hc'] at hc1
  cases hc1
  obtain ⟨c2, hc2, hw⟩ := enforce_annulus_partial before h Nphi Nr N Ng k rin rout h0 h1 alpha hA hN hg ha hb q hq c'
  refine ⟨c2, hc2, fun t ht i n hi hn => ?_⟩
  rw [hw t ht i n hi hn]
  by_cases hk : n < Ng
  · rw [if_pos hk]
    by_cases hz : wave .real Nphi i = 0
    · rw [if_pos hz]
      obtain ⟨p1, p2, p3⟩ := partner_component h ht
      have e1 : ∀ t', Spin.Spec.Component sig t' → c' t' i n = Spec.hermitian coord0 coord1 sig 1 (fun t i => c t i n) t' i := by
        intro t' ht'
        rw [hv _ ht' i n hi hn, if_pos hk, if_pos hz]
      have e2 : Spec.hermitian coord0 coord1 sig 1 (fun t i => c' t i n) t i = Spec.hermitian coord0 coord1 sig 1
          (fun t row => Spec.hermitian coord0 coord1 sig 1 (fun t i => c t i n) t row) t i := by
        conv_lhs => unfold Spec.hermitian
        conv_rhs => rw [Spec.hermitian]
        simp only [e1 t ht, e1 _ p1]
      rw [e2, hermitian_twice h 1 (by norm_num) _ t ht i, e1 t ht]
    · rw [if_neg hz]
  · rw [if_neg hk, hv t ht i n hi hn, if_neg hk]

/-! ## Sphere -/

theorem sphere_row (h : Spin.Spec.Suitable coord0 coord1 sig) {Nphi L : Nat} {a : List Nat → Int → Int → ℂ} {c : List Nat → Nat → Nat → ℝ}
    (hc : SphereField.Spec.HoldsReal sig Nphi L a c) (t : List Nat) (ht : Spin.Spec.Component sig t) (i j : Nat) (m l : Int)
    (hi : i < (sphereShape .real Nphi L).1) (hj : j < (sphereShape .real Nphi L).2) (e : sphereGroup .real Nphi L i j = some (m, l)) :
    SphereField.Spec.rowPart (spherePart coord0 coord1 sig a t m l) i =
      if m = 0 then Spec.hermitian coord0 coord1 sig (Spec.sign (spinWeight coord1 sig t)) (fun t i => c t i j) t i else c t i j := by
  have e1 := hc t ht i j m l hi hj e
  have e2 := hc _ (partner_component h ht).1 i j m l hi hj e
  unfold spherePart
  by_cases hm : m = 0
  · subst hm
    rw [if_pos rfl, if_pos rfl]
    unfold Spec.hermitian
    simp only [e1, e2]
    unfold SphereField.Spec.rowPart
    split
    · simp
      ring
    · simp
      ring
  · rw [if_neg hm, if_neg hm, e1]

theorem sphere_all (h : Spin.Spec.Suitable coord0 coord1 sig) (Nphi Ntheta N Ng : Nat) (hA : Orders.Spec.Allowed .real Nphi Ntheta)
    (hg : lmaxOf .real Ntheta < Ng) (hN : Nphi ≤ N) (q : Nat → ℝ) (hq : Jacobi.GridGuess Ng 0 0 q) (c : List Nat → Nat → Nat → ℝ) :
    ∃ u c' u', toGridReal coord0 coord1 sig Nphi (lmaxOf .real Ntheta) N Ng q c = some u ∧
      enforceSphere coord0 coord1 sig Nphi (lmaxOf .real Ntheta) N Ng q c = some c' ∧
      (∀ t, Spin.Spec.Component sig t → ∀ i j, i < (sphereShape .real Nphi (lmaxOf .real Ntheta)).1 → j < (sphereShape .real Nphi (lmaxOf .real Ntheta)).2 →
        ∃ m l, sphereGroup .real Nphi (lmaxOf .real Ntheta) i j = some (m, l) ∧
          c' t i j = if |spinWeight coord1 sig t| ≤ l then
            (if m = 0 then Spec.hermitian coord0 coord1 sig (Spec.sign (spinWeight coord1 sig t)) (fun t i => c t i j) t i else c t i j) else 0) ∧
      toGridReal coord0 coord1 sig Nphi (lmaxOf .real Ntheta) N Ng q c' = some u' ∧
      ∀ t, Spin.Spec.Component sig t → ∀ j x, x < Ng → u' t j x = u t j x := by
  have hc : SphereField.Spec.HoldsReal sig Nphi (lmaxOf .real Ntheta) (Modes.sphereReal Nphi (lmaxOf .real Ntheta) c) c :=
    fun t _ i j m l hi hj e => Modes.sphere_real_entry hA (fun p => c t p.1 p.2) i j m l hi hj e
  obtain ⟨fs, u, c', hf, hu, hc', hv, hval⟩ := sphere_project h Nphi Ntheta N Ng hA hg hN q hq _ c hc
  have hH : SphereField.Spec.HoldsReal sig Nphi (lmaxOf .real Ntheta) (fun t m l => if |spinWeight coord1 sig t| ≤ l then
      spherePart coord0 coord1 sig (Modes.sphereReal Nphi (lmaxOf .real Ntheta) c) t m l else 0) c' := by
    intro t ht i j m l hi hj e
    obtain ⟨m', l', e', h'⟩ := hv t ht i j hi hj
    rw [e, Option.some.injEq, Prod.mk.injEq] at e'
    obtain ⟨rfl, rfl⟩ := e'
    rw [h']
    beta_reduce
    by_cases hs : |spinWeight coord1 sig t| ≤ l
    · rw [if_pos hs, if_pos hs]
    · rw [if_neg hs, if_neg hs]
      unfold SphereField.Spec.rowPart
      split <;> rfl
  obtain ⟨fs', u', hf', hu', hv'⟩ := sphere_values_real h Nphi Ntheta N Ng hA hg hN q hq _ c' hH
  rw [hf] at hf'
  cases hf'
  refine ⟨u, c', u', hu, ?_, fun t ht i j hi hj => ?_, hu', fun t ht j x hx => ?_⟩
  · unfold enforceSphere
    rw [hu]
    exact hc'
  · obtain ⟨m, l, e, h'⟩ := hv t ht i j hi hj
    refine ⟨m, l, e, ?_⟩
    rw [h', sphere_row h hc t ht i j m l hi hj e]
  · rw [hv' t ht j x hx, hval t ht j x hx]
    refine Modes.sphere_value_congr h hf _ _ _ _ (fun t ht m l _ _ hsl _ => .inl ?_) _ _ t ht
    rw [if_pos]
    rw [Int.abs_eq_natAbs]
    exact_mod_cast hsl

/-- C104: enforcement of a real tensor field on the sphere, for any coefficients. -/
theorem enforce_sphere_partial (h : Spin.Spec.Suitable coord0 coord1 sig) (Nphi Ntheta N Ng : Nat) (hA : Orders.Spec.Allowed .real Nphi Ntheta)
    (hg : lmaxOf .real Ntheta < Ng) (hN : Nphi ≤ N) (q : Nat → ℝ) (hq : Jacobi.GridGuess Ng 0 0 q) (c : List Nat → Nat → Nat → ℝ) :
    ∃ c', enforceSphere coord0 coord1 sig Nphi (lmaxOf .real Ntheta) N Ng q c = some c' ∧
      ∀ t, Spin.Spec.Component sig t → ∀ i j, i < (sphereShape .real Nphi (lmaxOf .real Ntheta)).1 → j < (sphereShape .real Nphi (lmaxOf .real Ntheta)).2 →
        ∃ m l, sphereGroup .real Nphi (lmaxOf .real Ntheta) i j = some (m, l) ∧
          c' t i j = if |spinWeight coord1 sig t| ≤ l then
            (if m = 0 then Spec.hermitian coord0 coord1 sig (Spec.sign (spinWeight coord1 sig t)) (fun t i => c t i j) t i else c t i j) else 0 := by
  obtain ⟨_, c', _, _, hc', hv, -⟩ := sphere_all h Nphi Ntheta N Ng hA hg hN q hq c
  exact ⟨c', hc', hv⟩

/-- C104: enforcement on the sphere does not change the values of the field on the grid. -/
theorem enforce_sphere_values (h : Spin.Spec.Suitable coord0 coord1 sig) (Nphi Ntheta N Ng : Nat) (hA : Orders.Spec.Allowed .real Nphi Ntheta)
    (hg : lmaxOf .real Ntheta < Ng) (hN : Nphi ≤ N) (q : Nat → ℝ) (hq : Jacobi.GridGuess Ng 0 0 q) (c c' : List Nat → Nat → Nat → ℝ)
    (hc' : enforceSphere coord0 coord1 sig Nphi (lmaxOf .real Ntheta) N Ng q c = some c') :
    ∃ u u', toGridReal coord0 coord1 sig Nphi (lmaxOf .real Ntheta) N Ng q c = some u ∧
      toGridReal coord0 coord1 sig Nphi (lmaxOf .real Ntheta) N Ng q c' = some u' ∧
      ∀ t, Spin.Spec.Component sig t → ∀ j x, x < Ng → u' t j x = u t j x := by
  obtain ⟨u, c1, u', hu, hc1, -, hu', hv⟩ := sphere_all h Nphi Ntheta N Ng hA hg hN q hq c
  rw [hc'] at hc1
  cases hc1
  exact ⟨u, u', hu, hu', hv⟩

/-- C104: enforcement on the sphere is a projection. -/
theorem enforce_sphere_twice (h : Spin.Spec.Suitable coord0 coord1 sig) (Nphi Ntheta N Ng : Nat) (hA : Orders.Spec.Allowed .real Nphi Ntheta)
    (hg : lmaxOf .real Ntheta < Ng) (hN : Nphi ≤ N) (q : Nat → ℝ) (hq : Jacobi.GridGuess Ng 0 0 q) (c c' : List Nat → Nat → Nat → ℝ)
    (hc' : enforceSphere coord0 coord1 sig Nphi (lmaxOf .real Ntheta) N Ng q c = some c') :
    ∃ c'', enforceSphere coord0 coord1 sig Nphi (lmaxOf .real Ntheta) N Ng q c' = some c'' ∧
      ∀ t, Spin.Spec.Component sig t → ∀ i j, i < (sphereShape .real Nphi (lmaxOf .real Ntheta)).1 → j < (sphereShape .real Nphi (lmaxOf .real Ntheta)).2 →
        c'' t i j = c' t i j := by
  obtain ⟨c1, hc1, hv⟩ := enforce_sphere_partial h Nphi Ntheta N Ng hA hg hN q hq c
  rw [hc'] at hc1
  cases hc1
  obtain ⟨c2, hc2, hw⟩ := enforce_sphere_partial h Nphi Ntheta N Ng hA hg hN q hq c'
  refine ⟨c2, hc2, fun t ht i j hi hj => ?_⟩
  obtain ⟨m, l, e, hw⟩ := hw t ht i j hi hj
  obtain ⟨p1, p2, p3⟩ := partner_component h ht
  have hv' : ∀ t', Spin.Spec.Component sig t' → c' t' i j = if |spinWeight coord1 sig t'| ≤ l then
      (if m = 0 then Spec.hermitian coord0 coord1 sig (Spec.sign (spinWeight coord1 sig t')) (fun t i => c t i j) t' i else c t' i j) else 0 := by
    intro t' ht'
    obtain ⟨m', l', e', h'⟩ := hv t' ht' i j hi hj
    rw [e, Option.some.injEq, Prod.mk.injEq] at e'
    obtain ⟨rfl, rfl⟩ := e'
    exact h'
  rw [hw]
  by_cases hk : |spinWeight coord1 sig t| ≤ l
  · rw [if_pos hk]
    by_cases hz : m = 0
    · rw [if_pos hz]
      have e1 := hv' t ht
      rw [if_pos hk, if_pos hz] at e1
      have e3 := hv' _ p1
      rw [p3, sign_neg, abs_neg, if_pos hk, if_pos hz] at e3
      have e2 : Spec.hermitian coord0 coord1 sig (Spec.sign (spinWeight coord1 sig t)) (fun t i => c' t i j) t i =
          Spec.hermitian coord0 coord1 sig (Spec.sign (spinWeight coord1 sig t))
          (fun t' row => Spec.hermitian coord0 coord1 sig (Spec.sign (spinWeight coord1 sig t)) (fun t i => c t i j) t' row) t i := by
        conv_lhs => unfold Spec.hermitian
        conv_rhs => rw [Spec.hermitian]
        simp only [e1, e3]
      rw [e2, hermitian_twice h _ (sign_mul_self _) _ t ht i, e1]
    · rw [if_neg hz]
  · rw [if_neg hk, hv' t ht, if_neg hk]

end

/-! ## Ball and shell -/

section
variable {phi theta r : Spin.Coord} {sig : List Spin.Index}

theorem ball_all (before : Bool) (h0 : phi.azimuthal = true) (h1 : theta.azimuthal = false)
    (hsig : ∀ ix ∈ sig, ix = .single (.spherical phi theta r)) (Nphi Ntheta Nr k : Nat) (alpha : ℝ) (N Nt Ng : Nat)
    (hA : Orders.Spec.Allowed .real Nphi Ntheta) (hs : VolumeField.Spec.Separated .real Nphi (lmaxOf .real Ntheta))
    (hrank : sig.length ≤ 2 * Nr + 2) (hNt : lmaxOf .real Ntheta < Nt) (hN : Nphi ≤ N) (q : Nat → ℝ) (hq : Jacobi.GridGuess Nt 0 0 q) (g : Nat → ℝ)
    (ha : -1 < alpha) (hNg : 0 < Ng) (hg : Jacobi.GridGuess Ng alpha (1 / 2) g) (c : List Nat → Nat → Nat → Nat → ℝ) :
    ∃ u c' u', VolumeField.ballToGridReal phi theta r sig Nphi (lmaxOf .real Ntheta) Nr k alpha N Nt Ng q g c = some u ∧
      enforceBall before phi theta r sig Nphi (lmaxOf .real Ntheta) Nr k alpha N Nt Ng q g c = some c' ∧
      (∀ t, Spin.Spec.Component sig t → ∀ i j n, i < (sphereShape .real Nphi (lmaxOf .real Ntheta)).1 → j < (sphereShape .real Nphi (lmaxOf .real Ntheta)).2 →
        n < Nr → ∃ (m : Int) (l : Nat), sphereGroup .real Nphi (lmaxOf .real Ntheta) i j = some (m, (l : Int)) ∧
          open Classical in
          c' t i j n = if Regularity.Spec.Allowed l (VolumeField.Spec.numbers t) ∧ (l / 2 ≤ n ∧
            (l : Int) + (VolumeField.Spec.numbers t).sum + 2 * ((n : Int) - (l / 2 : Nat)) < 2 * (Ng : Int)) ∧
            (m = 0 → i % 2 = (VolumeField.Spec.numbers t).count 0 % 2) then c t i j n else 0) ∧
      VolumeField.ballToGridReal phi theta r sig Nphi (lmaxOf .real Ntheta) Nr k alpha N Nt Ng q g c' = some u' ∧
      ∀ t, Spin.Spec.Component sig t → ∀ x j y, x < Ng → y < Nt → u' x t j y = u x t j y := by
  classical
  obtain ⟨u, c', u', hu, hc', hv, hu', hv'⟩ := volume_project h0 h1 hsig hA (fun _ => hs) N Nt Nr Ng hNt hN q hq
    (VolumeField.ballBackward (VolumeField.ellMaps .real Nphi (lmaxOf .real Ntheta)) Ng Nr k alpha g)
    (VolumeField.ballForward before (VolumeField.ellMaps .real Nphi (lmaxOf .real Ntheta)) Ng Nr k alpha g)
    (fun _ => 1) (fun _ => 1) (Zernike.radiusGrid 3 Ng alpha g) (VolumeField.Spec.ballMode Ng (alpha + k)) (VolumeField.ballKept Ng)
    (fun c t ht i j x hi hj hx => by
      rw [one_smul]
      exact VolumeField.ball_back _ _ _ _ (VolumeField.degrees hA hs) sig.length Nr Ng k alpha g ha hNg hg t ht (c t) i j x hi hj hx)
    (fun t ht u b hu i j n hi hj hn => by
      exact VolumeField.ball_forw before _ _ _ _ (VolumeField.degrees hA hs) sig.length Nr Ng k alpha g ha hNg hg t ht u b i j n hi hj hn
        (fun x hx => by rw [hu i j x hi hj hx, one_smul]))
    (fun reg l n ρ hk => by
      unfold VolumeField.Spec.ballMode
      unfold VolumeField.ballKept at hk
      rw [if_neg hk]) c
  refine ⟨u, c', u', ?_, ?_, fun t ht i j n hi hj hn => ?_, ?_, hv'⟩
  · unfold VolumeField.ballToGridReal
    rw [VolumeField.ball_ready _ _ _ _ _ hrank]
    exact hu
  · unfold enforceBall VolumeField.ballToGridReal VolumeField.ballToCoeffReal
    rw [VolumeField.ball_ready _ _ _ _ _ hrank]
    simp only [Option.bind_some]
    rw [hu]
    exact hc'
  · obtain ⟨m, l, e1, e2⟩ := hv t ht i j n hi hj hn
    refine ⟨m, l, e1, ?_⟩
    rw [e2]
    split
    · rename_i e
      rw [if_pos ⟨e.1, e.2.1.2, e.2.2⟩]
    · rename_i e
      rw [if_neg fun e' => e ⟨e'.1, ⟨e'.1, e'.2.1⟩, e'.2.2⟩]
  · unfold VolumeField.ballToGridReal
    rw [VolumeField.ball_ready _ _ _ _ _ hrank]
    exact hu'

/-- C104: enforcement of a real tensor field in the ball, for any coefficients. Of those of order zero the real parts stay if the number of zero
regularities is even and the imaginary parts if it is odd; the others are unchanged, and coefficients that the grid does not keep are cleared. -/
theorem enforce_ball_partial (before : Bool) (h0 : phi.azimuthal = true) (h1 : theta.azimuthal = false)
    (hsig : ∀ ix ∈ sig, ix = .single (.spherical phi theta r)) (Nphi Ntheta Nr k : Nat) (alpha : ℝ) (N Nt Ng : Nat)
    (hA : Orders.Spec.Allowed .real Nphi Ntheta) (hs : VolumeField.Spec.Separated .real Nphi (lmaxOf .real Ntheta))
    (hrank : sig.length ≤ 2 * Nr + 2) (hNt : lmaxOf .real Ntheta < Nt) (hN : Nphi ≤ N) (q : Nat → ℝ) (hq : Jacobi.GridGuess Nt 0 0 q) (g : Nat → ℝ)
    (ha : -1 < alpha) (hNg : 0 < Ng) (hg : Jacobi.GridGuess Ng alpha (1 / 2) g) (c : List Nat → Nat → Nat → Nat → ℝ) :
    ∃ c', enforceBall before phi theta r sig Nphi (lmaxOf .real Ntheta) Nr k alpha N Nt Ng q g c = some c' ∧
      ∀ t, Spin.Spec.Component sig t → ∀ i j n, i < (sphereShape .real Nphi (lmaxOf .real Ntheta)).1 → j < (sphereShape .real Nphi (lmaxOf .real Ntheta)).2 →
        n < Nr → ∃ (m : Int) (l : Nat), sphereGroup .real Nphi (lmaxOf .real Ntheta) i j = some (m, (l : Int)) ∧
          open Classical in
          c' t i j n = if Regularity.Spec.Allowed l (VolumeField.Spec.numbers t) ∧ (l / 2 ≤ n ∧
            (l : Int) + (VolumeField.Spec.numbers t).sum + 2 * ((n : Int) - (l / 2 : Nat)) < 2 * (Ng : Int)) ∧
            (m = 0 → i % 2 = (VolumeField.Spec.numbers t).count 0 % 2) then c t i j n else 0 := by
  obtain ⟨_, c', _, _, hc', hv, -⟩ := ball_all before h0 h1 hsig Nphi Ntheta Nr k alpha N Nt Ng hA hs hrank hNt hN q hq g ha hNg hg c
  exact ⟨c', hc', hv⟩

/-- C104: enforcement in the ball does not change the values of the field on the grid. -/
theorem enforce_ball_values (before : Bool) (h0 : phi.azimuthal = true) (h1 : theta.azimuthal = false)
    (hsig : ∀ ix ∈ sig, ix = .single (.spherical phi theta r)) (Nphi Ntheta Nr k : Nat) (alpha : ℝ) (N Nt Ng : Nat)
    (hA : Orders.Spec.Allowed .real Nphi Ntheta) (hs : VolumeField.Spec.Separated .real Nphi (lmaxOf .real Ntheta))
    (hrank : sig.length ≤ 2 * Nr + 2) (hNt : lmaxOf .real Ntheta < Nt) (hN : Nphi ≤ N) (q : Nat → ℝ) (hq : Jacobi.GridGuess Nt 0 0 q) (g : Nat → ℝ)
    (ha : -1 < alpha) (hNg : 0 < Ng) (hg : Jacobi.GridGuess Ng alpha (1 / 2) g) (c c' : List Nat → Nat → Nat → Nat → ℝ)
    (hc' : enforceBall before phi theta r sig Nphi (lmaxOf .real Ntheta) Nr k alpha N Nt Ng q g c = some c') :
    ∃ u u', VolumeField.ballToGridReal phi theta r sig Nphi (lmaxOf .real Ntheta) Nr k alpha N Nt Ng q g c = some u ∧
      VolumeField.ballToGridReal phi theta r sig Nphi (lmaxOf .real Ntheta) Nr k alpha N Nt Ng q g c' = some u' ∧
      ∀ t, Spin.Spec.Component sig t → ∀ x j y, x < Ng → y < Nt → u' x t j y = u x t j y := by
  obtain ⟨u, c1, u', hu, hc1, -, hu', hv⟩ := ball_all before h0 h1 hsig Nphi Ntheta Nr k alpha N Nt Ng hA hs hrank hNt hN q hq g ha hNg hg c
  rw [hc'] at hc1
  cases hc1
  exact ⟨u, u', hu, hu', hv⟩

/-- C104: enforcement in the ball is a projection. -/
theorem enforce_ball_twice (before : Bool) (h0 : phi.azimuthal = true) (h1 : theta.azimuthal = false)
    (hsig : ∀ ix ∈ sig, ix = .single (.spherical phi theta r)) (Nphi Ntheta Nr k : Nat) (alpha : ℝ) (N Nt Ng : Nat)
    (hA : Orders.Spec.Allowed .real Nphi Ntheta) (hs : VolumeField.Spec.Separated .real Nphi (lmaxOf .real Ntheta))
    (hrank : sig.length ≤ 2 * Nr + 2) (hNt : lmaxOf .real Ntheta < Nt) (hN : Nphi ≤ N) (q : Nat → ℝ) (hq : Jacobi.GridGuess Nt 0 0 q) (g : Nat → ℝ)
    (ha : -1 < alpha) (hNg : 0 < Ng) (hg : Jacobi.GridGuess Ng alpha (1 / 2) g) (c c' : List Nat → Nat → Nat → Nat → ℝ)
    (hc' : enforceBall before phi theta r sig Nphi (lmaxOf .real Ntheta) Nr k alpha N Nt Ng q g c = some c') :
    ∃ c'', enforceBall before phi theta r sig Nphi (lmaxOf .real Ntheta) Nr k alpha N Nt Ng q g c' = some c'' ∧
      ∀ t, Spin.Spec.Component sig t → ∀ i j n, i < (sphereShape .real Nphi (lmaxOf .real Ntheta)).1 → j < (sphereShape .real Nphi (lmaxOf .real Ntheta)).2 →
        n < Nr → c'' t i j n = c' t i j n := by
  obtain ⟨c1, hc1, hv⟩ := enforce_ball_partial before h0 h1 hsig Nphi Ntheta Nr k alpha N Nt Ng hA hs hrank hNt hN q hq g ha hNg hg c
  rw [hc'] at hc1
  cases hc1
  obtain ⟨c2, hc2, hw⟩ := enforce_ball_partial before h0 h1 hsig Nphi Ntheta Nr k alpha N Nt Ng hA hs hrank hNt hN q hq g ha hNg hg c'
  refine ⟨c2, hc2, fun t ht i j n hi hj hn => ?_⟩
  obtain ⟨m, l, e, hw⟩ := hw t ht i j n hi hj hn
  obtain ⟨m', l', e', hv⟩ := hv t ht i j n hi hj hn
  rw [e, Option.some.injEq, Prod.mk.injEq, Int.natCast_inj] at e'
  obtain ⟨rfl, rfl⟩ := e'
  rw [hw, hv]
  split <;> rfl

theorem shell_all (before : Bool) (h0 : phi.azimuthal = true) (h1 : theta.azimuthal = false)
    (hsig : ∀ ix ∈ sig, ix = .single (.spherical phi theta r)) (rin rout : ℝ) (hr0 : 0 < rin) (hr : rin < rout) (Nphi Ntheta Nr k : Nat) (alpha : ℝ × ℝ)
    (N Nt Ng : Nat) (hA : Orders.Spec.Allowed .real Nphi Ntheta) (hs : 0 < sig.length → VolumeField.Spec.Separated .real Nphi (lmaxOf .real Ntheta))
    (hNt : lmaxOf .real Ntheta < Nt) (hN : Nphi ≤ N) (hNg : 0 < Ng) (q : Nat → ℝ) (hq : Jacobi.GridGuess Nt 0 0 q) (g : Nat → ℝ) (ha : -1 < alpha.1)
    (hb : -1 < alpha.2) (hg : Jacobi.GridGuess Ng alpha.1 alpha.2 g) (c : List Nat → Nat → Nat → Nat → ℝ) :
    ∃ u c' u', VolumeField.shellToGridReal phi theta r sig rin rout Nphi (lmaxOf .real Ntheta) Nr k alpha N Nt Ng q g c = some u ∧
      enforceShell before phi theta r sig rin rout Nphi (lmaxOf .real Ntheta) Nr k alpha N Nt Ng q g c = some c' ∧
      (∀ t, Spin.Spec.Component sig t → ∀ i j n, i < (sphereShape .real Nphi (lmaxOf .real Ntheta)).1 → j < (sphereShape .real Nphi (lmaxOf .real Ntheta)).2 →
        n < Nr → ∃ (m : Int) (l : Nat), sphereGroup .real Nphi (lmaxOf .real Ntheta) i j = some (m, (l : Int)) ∧
          open Classical in
          c' t i j n = if Regularity.Spec.Allowed l (VolumeField.Spec.numbers t) ∧ n < Ng ∧
            (m = 0 → i % 2 = (VolumeField.Spec.numbers t).count 0 % 2) then c t i j n else 0) ∧
      VolumeField.shellToGridReal phi theta r sig rin rout Nphi (lmaxOf .real Ntheta) Nr k alpha N Nt Ng q g c' = some u' ∧
      ∀ t, Spin.Spec.Component sig t → ∀ x j y, x < Ng → y < Nt → u' x t j y = u x t j y := by
  obtain ⟨F, hF⟩ := (Jacobi.matrix_forward_possible before Ng Nr (alpha.1 + k) (alpha.2 + k) alpha.1 alpha.2 g).2 ⟨k, k, rfl, rfl⟩
  obtain ⟨u, c', u', hu, hc', hv, hu', hv'⟩ := volume_project h0 h1 hsig hA hs N Nt Nr Ng hNt hN q hq
    (fun _ => VolumeField.shellBackward Ng Nr k alpha g) (fun _ => VolumeField.shellForward Ng F)
    (PolarField.factor rin rout alpha Ng k g k) (PolarField.factor rin rout alpha Ng k g (-k)) (Shell.radiusGrid rin rout alpha Ng g)
    (VolumeField.Spec.shellMode Ng rin rout alpha k) (fun _ _ n => n < Ng)
    (fun c t _ i j x _ _ hx => PolarField.annulus_back rin rout hr alpha ha hb Ng Nr k g hg (c t i) j x hx)
    (fun t ht u b hu i j n hi hj hn => by
      have := PolarField.annulus_forw before rin rout hr0 hr alpha ha hb Ng Nr k hNg g hg F hF (u i) (b i) j (fun x hx => hu i j x hi hj hx) n hn
      by_cases h2 : n < Ng
      · rw [if_pos h2] at this ⊢; exact this
      · rw [if_neg h2] at this ⊢; exact this)
    (fun reg l n ρ hk => by
      unfold VolumeField.Spec.shellMode PolarField.Spec.annulusMode
      rw [if_neg hk]) c
  refine ⟨u, c', u', hu, ?_, fun t ht i j n hi hj hn => ?_, hu', hv'⟩
  rotate_left
  · obtain ⟨m, l, e1, e2⟩ := hv t ht i j n hi hj hn
    refine ⟨m, l, e1, ?_⟩
    rw [e2]
    split <;> rfl
  unfold enforceShell VolumeField.shellToCoeffReal
  rw [hF]
  have : VolumeField.shellToGridReal phi theta r sig rin rout Nphi (lmaxOf .real Ntheta) Nr k alpha N Nt Ng q g c = some u := hu
  rw [this]
  exact hc'

/-- C104: enforcement of a real tensor field in the shell, for any coefficients. -/
theorem enforce_shell_partial (before : Bool) (h0 : phi.azimuthal = true) (h1 : theta.azimuthal = false)
    (hsig : ∀ ix ∈ sig, ix = .single (.spherical phi theta r)) (rin rout : ℝ) (hr0 : 0 < rin) (hr : rin < rout) (Nphi Ntheta Nr k : Nat) (alpha : ℝ × ℝ)
    (N Nt Ng : Nat) (hA : Orders.Spec.Allowed .real Nphi Ntheta) (hs : 0 < sig.length → VolumeField.Spec.Separated .real Nphi (lmaxOf .real Ntheta))
    (hNt : lmaxOf .real Ntheta < Nt) (hN : Nphi ≤ N) (hNg : 0 < Ng) (q : Nat → ℝ) (hq : Jacobi.GridGuess Nt 0 0 q) (g : Nat → ℝ) (ha : -1 < alpha.1)
    (hb : -1 < alpha.2) (hg : Jacobi.GridGuess Ng alpha.1 alpha.2 g) (c : List Nat → Nat → Nat → Nat → ℝ) :
    ∃ c', enforceShell before phi theta r sig rin rout Nphi (lmaxOf .real Ntheta) Nr k alpha N Nt Ng q g c = some c' ∧
      ∀ t, Spin.Spec.Component sig t → ∀ i j n, i < (sphereShape .real Nphi (lmaxOf .real Ntheta)).1 → j < (sphereShape .real Nphi (lmaxOf .real Ntheta)).2 →
        n < Nr → ∃ (m : Int) (l : Nat), sphereGroup .real Nphi (lmaxOf .real Ntheta) i j = some (m, (l : Int)) ∧
          open Classical in
          c' t i j n = if Regularity.Spec.Allowed l (VolumeField.Spec.numbers t) ∧ n < Ng ∧
            (m = 0 → i % 2 = (VolumeField.Spec.numbers t).count 0 % 2) then c t i j n else 0 := by
  obtain ⟨_, c', _, _, hc', hv, -⟩ := shell_all before h0 h1 hsig rin rout hr0 hr Nphi Ntheta Nr k alpha N Nt Ng hA hs hNt hN hNg q hq g ha hb hg c
  exact ⟨c', hc', hv⟩

/-- C104: enforcement in the shell does not change the values of the field on the grid. -/
theorem enforce_shell_values (before : Bool) (h0 : phi.azimuthal = true) (h1 : theta.azimuthal = false)
    (hsig : ∀ ix ∈ sig, ix = .single (.spherical phi theta r)) (rin rout : ℝ) (hr0 : 0 < rin) (hr : rin < rout) (Nphi Ntheta Nr k : Nat) (alpha : ℝ × ℝ)
    (N Nt Ng : Nat) (hA : Orders.Spec.Allowed .real Nphi Ntheta) (hs : 0 < sig.length → VolumeField.Spec.Separated .real Nphi (lmaxOf .real Ntheta))
    (hNt : lmaxOf .real Ntheta < Nt) (hN : Nphi ≤ N) (hNg : 0 < Ng) (q : Nat → ℝ) (hq : Jacobi.GridGuess Nt 0 0 q) (g : Nat → ℝ) (ha : -1 < alpha.1)
    (hb : -1 < alpha.2) (hg : Jacobi.GridGuess Ng alpha.1 alpha.2 g) (c c' : List Nat → Nat → Nat → Nat → ℝ)
    (hc' : enforceShell before phi theta r sig rin rout Nphi (lmaxOf .real Ntheta) Nr k alpha N Nt Ng q g c = some c') :
    ∃ u u', VolumeField.shellToGridReal phi theta r sig rin rout Nphi (lmaxOf .real Ntheta) Nr k alpha N Nt Ng q g c = some u ∧
      VolumeField.shellToGridReal phi theta r sig rin rout Nphi (lmaxOf .real Ntheta) Nr k alpha N Nt Ng q g c' = some u' ∧
      ∀ t, Spin.Spec.Component sig t → ∀ x j y, x < Ng → y < Nt → u' x t j y = u x t j y := by
  obtain ⟨u, c1, u', hu, hc1, -, hu', hv⟩ := shell_all before h0 h1 hsig rin rout hr0 hr Nphi Ntheta Nr k alpha N Nt Ng hA hs hNt hN hNg q hq g ha hb hg c
  rw [hc'] at hc1
  cases hc1
  exact ⟨u, u', hu, hu', hv⟩

/-- C104: enforcement in the shell is a projection. -/
theorem enforce_shell_twice (before : Bool) (h0 : phi.azimuthal = true) (h1 : theta.azimuthal = false)
    (hsig : ∀ ix ∈ sig, ix = .single (.spherical phi theta r)) (rin rout : ℝ) (hr0 : 0 < rin) (hr : rin < rout) (Nphi Ntheta Nr k : Nat) (alpha : ℝ × ℝ)
    (N Nt Ng : Nat) (hA : Orders.Spec.Allowed .real Nphi Ntheta) (hs : 0 < sig.length → VolumeField.Spec.Separated .real Nphi (lmaxOf .real Ntheta))
    (hNt : lmaxOf .real Ntheta < Nt) (hN : Nphi ≤ N) (hNg : 0 < Ng) (q : Nat → ℝ) (hq : Jacobi.GridGuess Nt 0 0 q) (g : Nat → ℝ) (ha : -1 < alpha.1)
    (hb : -1 < alpha.2) (hg : Jacobi.GridGuess Ng alpha.1 alpha.2 g) (c c' : List Nat → Nat → Nat → Nat → ℝ)
    (hc' : enforceShell before phi theta r sig rin rout Nphi (lmaxOf .real Ntheta) Nr k alpha N Nt Ng q g c = some c') :
    ∃ c'', enforceShell before phi theta r sig rin rout Nphi (lmaxOf .real Ntheta) Nr k alpha N Nt Ng q g c' = some c'' ∧
      ∀ t, Spin.Spec.Component sig t → ∀ i j n, i < (sphereShape .real Nphi (lmaxOf .real Ntheta)).1 → j < (sphereShape .real Nphi (lmaxOf .real Ntheta)).2 →
        n < Nr → c'' t i j n = c' t i j n := by
  obtain ⟨c1, hc1, hv⟩ := enforce_shell_partial before h0 h1 hsig rin rout hr0 hr Nphi Ntheta Nr k alpha N Nt Ng hA hs hNt hN hNg q hq g ha hb hg c
  rw [hc'] at hc1
  cases hc1
  obtain ⟨c2, hc2, hw⟩ := enforce_shell_partial before h0 h1 hsig rin rout hr0 hr Nphi Ntheta Nr k alpha N Nt Ng hA hs hNt hN hNg q hq g ha hb hg c'
  refine ⟨c2, hc2, fun t ht i j n hi hj hn => ?_⟩
  obtain ⟨m, l, e, hw⟩ := hw t ht i j n hi hj hn
  obtain ⟨m', l', e', hv⟩ := hv t ht i j n hi hj hn
  rw [e, Option.some.injEq, Prod.mk.injEq, Int.natCast_inj] at e'
  obtain ⟨rfl, rfl⟩ := e'
  rw [hw, hv]
  split <;> rfl

end

/-! ## What enforcement loses -/

/-- C104 fails for vectors in the disk if the dealias grid has `Nr` radii: the last coefficient of the component of spin +1 is cleared for every positive odd
order, although it takes part in no symmetry. -/
theorem enforce_disk_loses_refuted (before : Bool) (phi rad : Spin.Coord) (h0 : phi.azimuthal = true) (h1 : rad.azimuthal = false) (Nphi Nr N k : Nat)
    (alpha : ℝ) (hA : Accepted .real Nphi) (hN : Nphi ≤ N) (hr : Nphi < 4 * Nr) (ha : -1 < alpha) (q : Nat → ℝ) (hq : Jacobi.GridGuess Nr alpha 0 q)
    (c : List Nat → Nat → Nat → ℝ) :
    ∃ c', enforceDisk before phi rad [.single (.polar phi rad)] Nphi Nr k alpha N Nr q c = some c' ∧
      ∀ i, i < polarRows .real Nphi → 0 < wave .real Nphi i → wave .real Nphi i % 2 = 1 → c' [1] i (Nr - 1) = 0 := by
  have hs : Spin.Spec.Suitable phi rad [.single (.polar phi rad)] :=
    ⟨h0, h1, fun ix hix => by rw [List.mem_singleton.1 hix]; exact .inr (.pair _ ⟨by simp [Spin.Coord.eq], by simp [Spin.Coord.eq]⟩)⟩
  obtain ⟨c', hc', hv⟩ := enforce_disk_partial before hs Nphi Nr N Nr k alpha hA hN hr (by omega) ha q hq c
  refine ⟨c', hc', fun i hi hp ho => ?_⟩
  have hix : Spin.indexOf rad (Spin.Index.single (.polar phi rad)).coords = some 1 := by
    simp [Spin.indexOf, Spin.Index.coords, Spin.Cs.coords, Spin.Coord.eq, List.findIdx?_cons, h0, h1]
  have w1 : spinWeight rad [.single (.polar phi rad)] [1] = 1 := by simp [spinWeight, indexSpin, hix]
  rw [hv [1] (List.Forall₂.cons (show 1 < 2 by decide) .nil) i (Nr - 1) hi (by omega), w1, if_neg]
  rintro ⟨e1, e2⟩
  omega

/-! ## Cases that meet the hypotheses -/

example : (run (fun _ => id) (· + 1) (cadence true 100) 2 100 ⟨37, 0⟩).state = 2 := enforced_per_cadence 100 2 (by decide) 37

example : Accepted .real 16 ∧ 16 ≤ 24 ∧ 16 < 4 * 8 ∧ (∃ q, Jacobi.GridGuess 12 0 0 q) ∧ Orders.Spec.Allowed .real 16 8 ∧
    VolumeField.Spec.Separated .real 16 (lmaxOf .real 8) ∧ lmaxOf .real 8 < 12 ∧ (∃ q, Jacobi.GridGuess 10 0 (1 / 2) q) :=
  ⟨Or.inr ⟨by decide, by decide⟩, by decide, by decide, Jacobi.guess_exists 12 0 0 (by norm_num) (by norm_num),
    ⟨by decide, .inr ⟨by decide, by decide, by decide⟩⟩, .inr (.inr (.inr (by decide))), by decide,
    Jacobi.guess_exists 10 0 (1 / 2) (by norm_num) (by norm_num)⟩

/-- A vector in the disk, whose two components are partners, and a tensor of the ball. -/
example : Spec.partner ⟨true, "phi", 0⟩ ⟨false, "r", 1⟩ [.single (.polar ⟨true, "phi", 0⟩ ⟨false, "r", 1⟩)] [0] = [1] := by decide

example : VolumeField.Spec.numbers [0, 2, 1] = [-1, 0, 1] ∧ (VolumeField.Spec.numbers [0, 2, 1]).count 0 % 2 = 1 := by decide

end Dedalus.Hermitian
