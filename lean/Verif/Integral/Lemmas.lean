import Verif.Integral.Model
import Verif.Integral.Spec
import Verif.Average.Props
import Verif.Zernike.DiskProps
import Verif.Ball.Props
import Verif.Shell.Radial

namespace Dedalus.Integral
open Orders Average

theorem outSize_eq {P p : Nat} (hp : p < P) : outSize P p = if p = 0 then 1 else 0 := by
  have h := hi_lo_one (by omega) hp
  have e := rows_eq P 1 1 p (by omega)
  simp only [Nat.one_mul] at e
  unfold outSize
  rw [show azimuth P 1 1 = azimuth P (1 * 1) 1 from rfl] at *
  rw [e, List.length_range']
  split at h
  · rename_i h0
    rw [if_pos h0, h.1, h.2]
  · rename_i h0
    rw [if_neg h0, h]

theorem rowTimes_sum (A : Nat → ℝ) (n : Nat) (v : Nat → ℂ) : rowTimes A n v = ∑ k ∈ Finset.range n, (A k : ℂ) * v k := by
  unfold rowTimes
  induction n with
  | zero => rfl
  | succ n ih =>
    rw [List.range_succ, List.map_append, List.sum_append, ih, Finset.sum_range_succ]
    simp

/-! ## Disk and annulus -/

theorem polar_filter (maps : List Entry) (R : Nat) (A : Nat → ℝ) (x : Nat → Nat → ℂ) :
    polarIntegral maps R A x = polarIntegral (maps.filter fun e => decide (e.m = 0)) R A x := by
  unfold polarIntegral
  generalize (fun _ => 0 : Nat → ℂ) = o
  induction maps generalizing o with
  | nil => rfl
  | cons e l ih =>
    rw [List.foldl_cons, List.filter_cons]
    by_cases h : e.m = 0
    · rw [if_pos (by simpa using h), List.foldl_cons]
      exact ih _
    · rw [if_neg (by simpa using h), ← ih]
      simp only [if_neg h]

theorem low_zero {b C : Nat} {v w : Nat → Int} (hp : Rows b C v w) (h0 : v 0 = 0) (nm : Int → Nat) (hnm : nm 0 = 0) (t N : Nat) (ht : t ≤ C) (ht0 : 0 < t) (maps : List Entry)
    (h1 : ∀ e, e ∈ maps ↔ ∃ k, 0 ≤ k ∧ k < t ∧ e = polE b N nm v 0 k) (h2 : (maps.map (·.m)).Nodup) :
    maps.filter (fun e => decide (e.m = 0)) = [⟨0, (0, b), (0, b), (0, N), false⟩] := by
  have hk : polE b N nm v 0 0 = ⟨0, (0, b), (0, b), (0, N), false⟩ := by
    unfold polE
    rw [h0, hnm]; simp
  refine nodup_one _ _ (fun e => ?_) ((List.Nodup.of_map _ h2).filter _)
  rw [List.mem_filter, h1, decide_eq_true_eq]
  constructor
  · rintro ⟨⟨k, -, hkt, rfl⟩, hm⟩
    have : k = 0 := hp.inj k 0 (by omega) (by omega) (by rw [h0]; exact hm)
    subst this
    exact hk
  · rintro rfl
    exact ⟨⟨0, le_rfl, ht0, hk.symm⟩, rfl⟩

/-- The sizes for which the maps are built, and their entry of order zero. -/
theorem polar_maps (disk : Bool) (d : Dtype) (Nphi Nr Ng P p : Nat) (h : Nphi = 1 ∧ 0 < Nr ∨ Orders.Spec.PolarAllowed disk d Nphi Nr) (hg : 0 < Ng) (hp : p < P) :
    ∃ maps, polarMaps disk d Nphi Nr Ng P p = some maps ∧
      (p = 0 → maps.filter (fun e => decide (e.m = 0)) = [⟨0, (0, d.parts), (0, d.parts), (0, Nr), false⟩]) := by
  have hnm0 : (nmin disk 0).toNat = 0 := by cases disk <;> rfl
  rcases h with ⟨rfl, hN⟩ | h
  · have h1 := polar_one disk d Nr Ng P p hN hg hp
    by_cases hp0 : p = 0
    · rw [if_pos hp0] at h1
      exact ⟨_, h1.2, fun _ => by simp⟩
    · rw [if_neg hp0] at h1
      exact ⟨_, h1.2, fun h => absurd h hp0⟩
  · obtain ⟨hN, h, hd⟩ := h
    have hnm : ∀ m : Int, (disk = true → m.natAbs < 2 * Nr) → (nmin disk m).toNat < Nr := by
      intro m hm
      unfold nmin
      cases disk with
      | false => simpa using hN
      | true =>
        have := hm rfl
        simp only [if_true]
        rw [Int.abs_eq_natAbs]
        omega
    have key : ∀ (b C : Nat) (v : Nat → Int), 0 < C → Rows b C v (wave d Nphi) → v 0 = 0 → (∀ k, k < C → disk = true → (v k).natAbs < 2 * Nr) →
        d.parts = b → polarGrid d Nphi P p = List.range' (b * lo P C p) (b * (hi P C p - lo P C p)) → polarCoeff d Nphi P p = polarGrid d Nphi P p →
        ∃ maps, polarMaps disk d Nphi Nr Ng P p = some maps ∧
      (p = 0 → maps.filter (fun e => decide (e.m = 0)) = [⟨0, (0, d.parts), (0, d.parts), (0, Nr), false⟩]) := by
      intro b C v hC hr hv0 hv hb h1 h2
      obtain ⟨maps, h3, h4, h5⟩ := maps_low hr (fun m => (nmin disk m).toNat) (lo P C p) (hi P C p) Nr Ng (hi_le P C p) hg (fun k hk => hnm _ (hv k hk))
      refine ⟨maps, ?_, ?_⟩
      · unfold polarMaps
        rw [polarGroup_eq, h2, h1, hb]
        exact h3
      · rintro rfl
        obtain ⟨a1, a2⟩ := lo_hi_zero (P := P) (C := C) (by omega) hC
        rw [a1] at h4
        rw [hb]
        exact low_zero hr hv0 _ hnm0 _ Nr (hi_le P C 0) a2 maps h4 h5
    cases d with
    | real =>
      rcases h with ⟨h, -⟩ | ⟨h0, ⟨Q, rfl⟩⟩
      · cases h
      · simp only [Dtype.parts] at h0 hd
        have hQ : 0 < Q := by omega
        have hm : ¬mmax (2 * 2 * Q) = 0 := by unfold mmax; omega
        have hr := rows_real Q hQ
        refine key 2 (2 * Q) (vReal Q) (by omega) (by rw [show 2 * Dtype.real.parts * Q = 4 * Q by simp only [Dtype.parts]]; exact hr) (by simp [vReal, oReal]) (fun k hk hdisk => ?_) rfl ?_ ?_
        · have := hd hdisk
          unfold vReal oReal
          split <;> omega
        · unfold polarGrid polarGridChunk
          simp only [Dtype.parts, hm, if_false]
          rw [show 2 * 2 * Q = 2 * (2 * Q) by ring]
          exact rows_eq P 2 (2 * Q) p (by omega)
        · unfold polarCoeff polarGrid polarRows polarGridChunk
          simp only [Dtype.parts, hm, if_false, show 2 * 2 * Q > 1 by omega, if_true]
    | complex =>
      have grid : ∀ N, polarGrid .complex N P p = List.range' (1 * lo P N p) (1 * (hi P N p - lo P N p)) := by
        intro N
        have := rows_eq P 1 N p (by omega)
        rw [Nat.one_mul N] at this
        exact this
      rcases h with ⟨-, rfl⟩ | ⟨h0, ⟨M, rfl⟩⟩
      · exact key 1 1 _ (by omega) (rows_small 1 (Or.inl rfl)) rfl (fun k hk _ => by simp; omega) rfl (grid 1) rfl
      · simp only [Dtype.parts] at h0 hd
        by_cases hM : M = 1
        · subst hM
          exact key 1 2 _ (by omega) (rows_small 2 (Or.inr rfl)) rfl (fun k hk hdisk => by have := hd hdisk; simp; omega) rfl (grid 2) rfl
        · refine key 1 (2 * M) (vComplex M) (by omega) (by rw [show 2 * 1 * M = 2 * M by ring]; exact rows_complex M (by omega)) (by simp [vComplex, oComplex])
            (fun k hk hdisk => ?_) rfl ?_ rfl
          · have := hd hdisk
            unfold vComplex oComplex
            split
            · omega
            · split <;> omega
          · rw [show 2 * 1 * M = 2 * M by ring]
            exact grid _

/-- The result on every process: the product with the first row of order zero on process 0, no elements elsewhere. -/
theorem polar_result (disk : Bool) (d : Dtype) (Nphi Nr Ng P p : Nat) (h : Nphi = 1 ∧ 0 < Nr ∨ Orders.Spec.PolarAllowed disk d Nphi Nr) (hg : 0 < Ng) (hp : p < P)
    (A : Nat → ℝ) (c x : Nat → Nat → ℂ) (hx : ∀ i r, (polarCoeff d Nphi P p)[i]? = some r → x i = c r) :
    ∃ out, polar disk d Nphi Nr Ng P p A x = some out ∧ ∀ i, i < outSize P p → p = 0 ∧ i = 0 ∧ out i = ∑ k ∈ Finset.range Nr, (A k : ℂ) * c 0 k := by
  obtain ⟨maps, h1, h2⟩ := polar_maps disk d Nphi Nr Ng P p h hg hp
  have hN : 0 < Nr := by rcases h with h | h; exacts [h.2, h.1]
  refine ⟨_, by unfold polar; rw [h1]; rfl, fun i hi => ?_⟩
  have ho := outSize_eq hp
  by_cases hp0 : p = 0
  · rw [if_pos hp0] at ho
    have hi0 : i = 0 := by omega
    subst hi0
    refine ⟨hp0, rfl, ?_⟩
    have hrow : (polarCoeff d Nphi P p)[0]? = some 0 := by
      obtain ⟨⟨C, hC⟩, hle, -⟩ := polar_zero d Nphi (by
        rcases h with h | ⟨-, h | h, -⟩
        exacts [.inl h.1, .inl h.2, .inr h])
      have hb := parts_pos d
      have hC0 : 0 < C := by
        rcases Nat.eq_zero_or_pos C with rfl | h'
        · omega
        · exact h'
      unfold polarCoeff
      rw [hC, rows_eq P d.parts C p hb, range'_get, hp0]
      obtain ⟨h2, h3⟩ := lo_hi_zero (P := P) (C := C) (by omega) hC0
      rw [h2]
      have : d.parts * 1 ≤ d.parts * (Orders.hi P C 0 - 0) := Nat.mul_le_mul_left _ (by omega)
      exact ⟨by omega, by omega⟩
    beta_reduce
    rw [polar_filter, h2 hp0]
    simp only [polarIntegral, List.foldl_cons, List.foldl_nil, if_true]
    rw [if_pos ⟨trivial, by omega, trivial, hN⟩, rowTimes_sum, hx 0 0 hrow, zero_add]
    simp
  · rw [if_neg hp0] at ho
    omega

/-- The integral over the azimuth. -/
theorem azimuth_integral (disk : Bool) (d : Dtype) (Nphi Nr : Nat) (h : Nphi = 1 ∨ (0 < Nphi ∧ 2 * d.parts ∣ Nphi)) (c : Nat → Nat → ℂ) (lam : Int → Nat → ℂ) :
    ∫ φ in (0 : ℝ)..2 * Real.pi, Average.Spec.polarValue disk d Nphi Nr lam c φ = (2 * Real.pi : ℝ) * ∑ n ∈ Finset.range Nr, lam 0 n * c 0 n := by
  have hm := polar_mean disk d Nphi Nr h c lam 0
  have hpi : ((2 * Real.pi : ℝ) : ℂ) ≠ 0 := by
    have := Real.pi_pos
    exact_mod_cast (by positivity : (2 * Real.pi : ℝ) ≠ 0)
  rw [eq_div_iff hpi] at hm
  rw [← hm, mul_comm]
  congr 1
  unfold Average.Spec.polarValue
  have hnm : nmin disk 0 ≤ 0 := by cases disk <;> decide
  cases d with
  | real =>
    rw [show polarRows .real 1 = 2 from rfl, Finset.sum_range_succ, Finset.sum_range_one, show wave .real 1 0 = 0 by decide, show wave .real 1 1 = 0 by decide]
    rw [Finset.sum_eq_zero (s := Finset.range Nr) (f := fun n => if nmin disk 0 ≤ (n : Int) then c 1 n * lam 0 n * Average.Spec.harmonic .real 0 (1 % Dtype.real.parts) 0 else 0), add_zero]
    · refine Finset.sum_congr rfl fun n _ => ?_
      rw [if_pos (by omega)]
      simp [Average.Spec.harmonic, Fourier.Spec.realMode, Dtype.parts]
      ring
    · intro n _
      rw [if_pos (by omega)]
      simp [Average.Spec.harmonic, Fourier.Spec.realMode, Dtype.parts]
  | complex =>
    rw [show polarRows .complex 1 = 1 from rfl, Finset.sum_range_one, show wave .complex 1 0 = 0 by decide]
    refine Finset.sum_congr rfl fun n _ => ?_
    rw [if_pos (by omega)]
    simp [Average.Spec.harmonic, Fourier.Spec.mode]
    ring

/-! ## Ball and shell -/

theorem rows_lt (G : Nat → Nat → Int × Int) (b r0 c0 R C : Nat) (e : Maps.Entry) (he : e ∈ Maps.ellMaps G b r0 c0 R C) : e.rows.1 < e.rows.2 := by
  rw [Maps.ellMaps_eq] at he
  obtain ⟨d, -, h⟩ := List.mem_flatMap.1 he
  obtain ⟨k, -, h⟩ := List.mem_filterMap.1 h
  unfold Maps.entryOf at h
  split at h
  · simp at h
  · rename_i hne
    simp only [Option.some.injEq] at h
    subst h
    have hne2 : (Maps.hits G r0 c0 R C d k).filterMap (·[0]?) ≠ [] := by
      obtain ⟨x, hx⟩ := List.exists_mem_of_ne_nil _ hne
      obtain ⟨i, rfl, -⟩ := (Maps.mem_hits G r0 c0 R C d k x).1 hx
      exact List.ne_nil_of_mem (List.mem_filterMap.2 ⟨_, hx, rfl⟩)
    have := Subsys.lmin_le (Subsys.lmax_mem hne2)
    simp only
    omega

theorem sphericalIntegral_count (maps : List Maps.Entry) (R C Nr : Nat) (A : Nat → ℝ) (x : Nat → Nat → Nat → ℂ) (i j : Nat) :
    sphericalIntegral maps R C Nr A x i j =
      (maps.filter fun e => decide (e.ell = 0 ∧ i = e.rows.1 ∧ i < R ∧ e.cols.1 ≤ j ∧ j < e.cols.2 ∧ j < C)).length • rowTimes A Nr (x i j) := by
  unfold sphericalIntegral
  suffices H : ∀ (o : Nat → Nat → ℂ), maps.foldl (fun out e => fun i j =>
      if e.ell = 0 then
        if i = e.rows.1 ∧ i < R ∧ e.cols.1 ≤ j ∧ j < e.cols.2 ∧ j < C then out i j + rowTimes A Nr (x i j) else out i j
      else out i j) o i j = o i j +
      (maps.filter fun e => decide (e.ell = 0 ∧ i = e.rows.1 ∧ i < R ∧ e.cols.1 ≤ j ∧ j < e.cols.2 ∧ j < C)).length • rowTimes A Nr (x i j) by
    rw [H, zero_add]
  induction maps with
  | nil => intro o; simp
  | cons e l ih =>
    intro o
    rw [List.foldl_cons, ih, List.filter_cons]
    by_cases h0 : e.ell = 0
    · by_cases h : i = e.rows.1 ∧ i < R ∧ e.cols.1 ≤ j ∧ j < e.cols.2 ∧ j < C
      · rw [if_pos h0, if_pos h, if_pos (by simp only [decide_eq_true_eq]; exact ⟨h0, h⟩), List.length_cons, succ_nsmul]
        ring
      · rw [if_pos h0, if_neg h, if_neg (by simp only [decide_eq_true_eq]; exact fun h' => h h'.2)]
    · rw [if_neg h0, if_neg (by simp only [decide_eq_true_eq]; exact fun h' => h0 h'.1)]

/-- The result on every process: the product with the first coefficients on process `(0, 0)`, no elements elsewhere. -/
theorem spherical_result (d : Dtype) (Nphi Ntheta Nr P0 P1 p0 p1 : Nat) (h : Orders.Spec.Allowed d Nphi Ntheta) (hp0 : p0 < P0) (hp1 : p1 < P1) (A : Nat → ℝ)
    (c : Cell → ℂ) (x : Nat → Nat → Nat → ℂ)
    (hx : ∀ i r j s n, (sphereRows d Nphi (lmaxOf d Ntheta) P0 p0)[i]? = some r → (sphereCols d Nphi (lmaxOf d Ntheta) P1 p1)[j]? = some s → x i j n = c (r, s, n))
    (i j : Nat) (hi : i < outSize P0 p0) (hj : j < outSize P1 p1) :
    p0 = 0 ∧ p1 = 0 ∧ i = 0 ∧ j = 0 ∧
      spherical d Nphi (lmaxOf d Ntheta) Nr P0 P1 p0 p1 A x i j = ∑ n ∈ Finset.range Nr, (A n : ℂ) * c (0, 0, n) := by
  have o0 := outSize_eq hp0
  have o1 := outSize_eq hp1
  by_cases h0 : p0 = 0
  swap
  · rw [if_neg h0] at o0; omega
  by_cases h1 : p1 = 0
  swap
  · rw [if_neg h1] at o1; omega
  rw [if_pos h0] at o0
  rw [if_pos h1] at o1
  have hi0 : i = 0 := by omega
  have hj0 : j = 0 := by omega
  subst h0 h1 hi0 hj0
  refine ⟨rfl, rfl, rfl, rfl, ?_⟩
  obtain ⟨a1, a2, a3⟩ := first_row d Nphi Ntheta P0 hp0 h
  obtain ⟨b1, b2, b3⟩ := first_col d Nphi (lmaxOf d Ntheta) P1 hp1
  have hb := parts_pos d
  unfold spherical
  rw [sphericalIntegral_count, a1, b1, o0, o1, rowTimes_sum]
  have hd := degree_zero d Nphi Ntheta h 0 hb
  generalize hR : (sphereRows d Nphi (lmaxOf d Ntheta) P0 0).length = R at *
  generalize hC : (sphereCols d Nphi (lmaxOf d Ntheta) P1 0).length = C at *
  have hv : Maps.visits (Maps.ellMaps (sphereName d Nphi (lmaxOf d Ntheta)) d.parts 0 0 R C) 0 0 = [0] := by
    refine nodup_one _ _ (fun e => ?_) (Maps.visits_nodup _ _ 0 0 R C 0 0 (by omega))
    rw [Maps.mem_visits _ _ 0 0 R C 0 0 (by omega) e]
    constructor
    · rintro ⟨p, q, -, -, h1, -, h2, -⟩
      rw [← h2]
      have : p = 0 := by omega
      subst this
      simp only [Maps.deg, Nat.zero_add, hd]
    · rintro rfl
      refine ⟨0, 0, by omega, by omega, le_rfl, le_rfl, ?_, ?_⟩ <;> simp only [Maps.deg, Nat.zero_add, hd]
  have hf : ((Maps.ellMaps (sphereName d Nphi (lmaxOf d Ntheta)) d.parts 0 0 R C).filter fun e =>
      decide (e.ell = 0 ∧ 0 = e.rows.1 ∧ 0 < 1 ∧ e.cols.1 ≤ 0 ∧ 0 < e.cols.2 ∧ 0 < 1)).length = 1 := by
    have := congrArg List.length hv
    simp only [Maps.visits, List.length_map, List.length_singleton] at this
    rw [← this]
    congr 1
    refine List.filter_congr fun e he => ?_
    have hlt := rows_lt _ _ _ _ _ _ e he
    have hz : e.covers 0 0 = true → e.ell = 0 := by
      intro hc
      have : e.ell ∈ Maps.visits (Maps.ellMaps (sphereName d Nphi (lmaxOf d Ntheta)) d.parts 0 0 R C) 0 0 := by
        unfold Maps.visits
        exact List.mem_map.2 ⟨e, List.mem_filter.2 ⟨he, hc⟩, rfl⟩
      rw [hv] at this
      simpa using this
    rw [Bool.eq_iff_iff]
    constructor
    · intro hq
      rw [decide_eq_true_eq] at hq
      simp only [Maps.Entry.covers, Bool.and_eq_true, decide_eq_true_eq]
      omega
    · intro hc
      have hz := hz hc
      simp only [Maps.Entry.covers, Bool.and_eq_true, decide_eq_true_eq] at hc
      rw [decide_eq_true_eq]
      refine ⟨hz, ?_, by omega, ?_, ?_, by omega⟩ <;> omega
  rw [hf, one_nsmul]
  refine Finset.sum_congr rfl fun n _ => ?_
  rw [hx 0 0 0 0 n (a3 0 hb) b3]

/-- The integral over the angles. -/
theorem angle_integral (d : Dtype) (Nphi Ntheta Nr : Nat) (h : Orders.Spec.Allowed d Nphi Ntheta) (low : Int → Nat) (rad : Int → Nat → ℂ) (c : Cell → ℂ) :
    ∫ θ in (0 : ℝ)..Real.pi, (∫ φ in (0 : ℝ)..2 * Real.pi,
        Average.Spec.value d Nphi (lmaxOf d Ntheta) Nr low (fun m l n => (Sphere.Spec.Y l.toNat m 0 (Real.cos θ) : ℝ) * rad l n) c φ) * Real.sin θ =
      (4 * Real.pi / √2 : ℝ) * ∑ n ∈ Finset.range Nr, if low 0 ≤ n then rad 0 n * c (0, 0, n) else 0 := by
  set a : Nat → Nat → ℂ := fun i j => ∑ n ∈ Finset.range Nr,
    if low (sphereName d Nphi (lmaxOf d Ntheta) i j).2 ≤ n then rad (sphereName d Nphi (lmaxOf d Ntheta) i j).2 n * c (i, j, n) else 0 with ha
  have e : ∀ θ φ, Average.Spec.value d Nphi (lmaxOf d Ntheta) Nr low (fun m l n => (Sphere.Spec.Y l.toNat m 0 (Real.cos θ) : ℝ) * rad l n) c φ =
      sphereValue d Nphi (lmaxOf d Ntheta) a θ φ := by
    intro θ φ
    unfold sphereValue Average.Spec.value
    refine Finset.sum_congr rfl fun i _ => Finset.sum_congr rfl fun j _ => ?_
    rw [Finset.sum_range_one]
    unfold Average.Spec.term
    rw [name_eq]
    simp only [Nat.zero_le, if_true, ha, Finset.sum_mul]
    refine Finset.sum_congr rfl fun n _ => ?_
    split
    · ring
    · simp
  simp only [e]
  have hm := sphere_mean d Nphi Ntheta h a a (fun _ _ => rfl) 0 0
  have hpi : ((4 * Real.pi : ℝ) : ℂ) ≠ 0 := by
    have := Real.pi_pos
    exact_mod_cast (by positivity : (4 * Real.pi : ℝ) ≠ 0)
  rw [eq_div_iff hpi] at hm
  rw [← hm, sphereValue_one]
  have hd := degree_zero d Nphi Ntheta h 0 (parts_pos d)
  have hf : Sphere.Spec.field 0 0 0 (a 0) 0 = ((1 / √2 : ℝ) : ℂ) * a 0 0 := by
    unfold Sphere.Spec.field
    simp [Ball.Y_zero]
  have ha0 : a 0 0 = ∑ n ∈ Finset.range Nr, if low 0 ≤ n then rad 0 n * c (0, 0, n) else 0 := by
    simp only [ha, hd]
  rw [← ha0]
  cases d with
  | real =>
    rw [show Dtype.real.parts = 2 from rfl, Finset.sum_range_succ, Finset.sum_range_one, hf]
    simp [Average.Spec.harmonic, Fourier.Spec.realMode]
    ring
  | complex =>
    rw [show Dtype.complex.parts = 1 from rfl, Finset.sum_range_one, hf]
    simp [Average.Spec.harmonic, Fourier.Spec.mode]
    ring

end Dedalus.Integral
