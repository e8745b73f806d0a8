import Verif.RadialInterp.Model
import Verif.RadialInterp.Spec
import Verif.VolumeField.Props
import Verif.PolarField.Plans
import Verif.Integral.Lemmas
import Verif.Ball.Calculus

namespace Dedalus.RadialInterp
open Orders SphereField

section
variable {V : Type} [AddCommGroup V] [Module ℝ V]

/-! ## Degrees -/

/-- A loop over the maps acts on a slot once for every entry that covers it. -/
theorem foldl_visits {W : Type} (F : Int → Nat → Nat → W → W) (maps : List Maps.Entry) (i j : Nat) (out : Nat → Nat → W) :
    maps.foldl (fun out e => fun i j => if e.covers i j then F e.ell i j (out i j) else out i j) out i j =
      (Maps.visits maps i j).foldl (fun o ell => F ell i j o) (out i j) := by
  unfold Maps.visits
  induction maps generalizing out with
  | nil => rfl
  | cons e l ih =>
    rw [List.foldl_cons, ih]
    by_cases hc : e.covers i j = true
    · rw [if_pos hc, List.filter_cons, if_pos hc]; rfl
    · rw [if_neg hc, List.filter_cons, if_neg hc]

/-- Components that a degree does not have do not enter. -/
theorem back_allowed (ell rank : Nat) (u v : List Nat → V) (h : ∀ t, VolumeField.Valid rank t → Regularity.Spec.Allowed ell (VolumeField.regs t) → u t = v t)
    (t : List Nat) (ht : VolumeField.Valid rank t) : VolumeField.back ell rank u t = VolumeField.back ell rank v t := by
  unfold VolumeField.back
  congr 1
  refine List.map_congr_left fun t' ht' => ?_
  have hv := (VolumeField.mem_indices rank t').1 ht'
  by_cases ha : Regularity.Spec.Allowed ell (VolumeField.regs t')
  · rw [h t' hv ha]
  · have hf : Regularity.forbiddenRegularity ell (VolumeField.regs t') = true := by
      by_contra hcon
      exact ha ((Regularity.forbidden_regularity_correct ell rank _ (VolumeField.regs_component hv)).1 (by simpa using hcon))
    have h0 : Regularity.intertwiner ell (VolumeField.regs t') (VolumeField.regs t) = 0 := by
      obtain ⟨l1, -⟩ := VolumeField.regs_component hv
      obtain ⟨l2, -⟩ := VolumeField.regs_component ht
      cases h1 : VolumeField.regs t' with
      | nil => rw [h1] at ha; exact absurd ((Regularity.allowed_spec ell []).1 rfl) ha
      | cons a b =>
        cases h2 : VolumeField.regs t with
        | nil => rw [h1] at l1; rw [h2] at l2; simp at l1 l2; omega
        | cons x y =>
          unfold Regularity.intertwiner
          rw [if_pos (Or.inr (by rw [← h1]; exact hf))]
    rw [h0, zero_smul, zero_smul]

theorem ball_rows {maps : List Maps.Entry} {deg : Nat → Nat → Int} {R C : Nat} (hp : Maps.Partition maps deg R C) {rank : Nat} (radius : ℝ) (Nr k : Nat)
    (alpha p : ℝ) (ha : -1 < alpha) (hr : 0 < radius) (hpos : 0 < p) {t : List Nat} (ht : VolumeField.Valid rank t) (c : Nat → Nat → Nat → V) (old : Nat → Nat → V)
    (i j : Nat) (hi : i < R) (hj : j < C) (hal : Regularity.Spec.Allowed (deg i j).toNat (VolumeField.regs t)) :
    ballRows maps radius Nr k alpha p t c old i j = VolumeField.series (Spec.ballRadial radius (alpha + k)) Nr (deg i j).toNat p t (c i j) := by
  classical
  have hu := (VolumeField.regs_component ht).2
  unfold ballRows
  rw [foldl_visits (fun ell i j o => if Ball.allowed ell.toNat (VolumeField.regs t) then ballRow radius Nr k alpha p t ell (c i j) else o), hp.1 i j hi hj]
  simp only [List.foldl_cons, List.foldl_nil]
  rw [if_pos ((Ball.allowed_iff _ _ hu).2 ((Regularity.allowed_spec _ _).2 hal))]
  unfold ballRow VolumeField.series
  simp only [VolumeField.minDegree_toNat]
  generalize (deg i j).toNat = l at *
  rw [PolarField.sum_shift Nr (l / 2)]
  · refine Finset.sum_congr rfl fun n hn => ?_
    have hn' := Finset.mem_range.1 hn
    have h2 := Regularity.allowed_sum l (VolumeField.regs t) ((Regularity.forbidden_iff l (VolumeField.regs t) hu).1
        ((Regularity.forbidden_regularity_correct l rank (VolumeField.regs t) (VolumeField.regs_component ht)).2 hal))
    obtain ⟨l', hl'⟩ := Int.eq_ofNat_of_zero_le h2
    unfold Spec.ballRadial Ball.interpolation
    rw [if_pos ⟨hal, by omega⟩, hl', Zernike.polynomials_Z 3 _ _ _ _ (by norm_num) (by have : (0 : ℝ) ≤ k := Nat.cast_nonneg k
                                                                                       linarith) (div_pos hpos hr) n (by omega)]
    rw [show l / 2 + n - l / 2 = n by omega]
    rfl
  · intro n hn
    unfold Spec.ballRadial
    rw [if_neg (fun e => by have := e.2; omega), zero_smul]

theorem native_eq (rin rout p : ℝ) (h : rin < rout) : p * 2 / (rout - rin) - (rout + rin) / (rout - rin) = Jacobi.Spec.native rin rout p := by
  have : rout - rin ≠ 0 := by linarith
  unfold Jacobi.Spec.native
  field_simp
  ring

theorem shell_vector (rin rout : ℝ) (alpha : ℝ × ℝ) (Nr k : Nat) (p : ℝ) (hR : rin < rout) (h1 : -1 < alpha.1) (h2 : -1 < alpha.2) (n : Nat) (hn : n < Nr) :
    Shell.interpolation rin rout alpha Nr k p n = Spec.shellRadial rin rout alpha k n p := by
  have : (0 : ℝ) ≤ k := Nat.cast_nonneg k
  unfold Shell.interpolation Spec.shellRadial
  rw [Jacobi.polynomials_Q _ _ _ _ (by linarith) (by linarith) n (by omega), native_eq _ _ _ hR]

theorem shell_rows {maps : List Maps.Entry} {deg : Nat → Nat → Int} {R C : Nat} (hp : Maps.Partition maps deg R C) {rank : Nat} (rin rout : ℝ)
    (alpha : ℝ × ℝ) (Nr k : Nat) (p : ℝ) (hR : rin < rout) (h1 : -1 < alpha.1) (h2 : -1 < alpha.2) {t : List Nat} (ht : VolumeField.Valid rank t) (c : Nat → Nat → Nat → V)
    (i j : Nat) (hi : i < R) (hj : j < C) (hal : Regularity.Spec.Allowed (deg i j).toNat (VolumeField.regs t)) :
    shellRows maps rin rout alpha Nr k p t c i j =
      VolumeField.series (fun _ _ => Spec.shellRadial rin rout alpha k) Nr (deg i j).toNat p t (c i j) := by
  unfold shellRows
  rw [foldl_visits (fun ell i j o => if Ball.allowed ell.toNat (VolumeField.regs t) then o + shellRow rin rout alpha Nr k p (c i j) else o), hp.1 i j hi hj]
  simp only [List.foldl_cons, List.foldl_nil]
  rw [if_pos ((Ball.allowed_iff _ _ (VolumeField.regs_component ht).2).2 ((Regularity.allowed_spec _ _).2 hal)), zero_add]
  unfold shellRow VolumeField.series
  exact Finset.sum_congr rfl fun n hn => by rw [shell_vector rin rout alpha Nr k p hR h1 h2 n (Finset.mem_range.1 hn)]

end

section
variable {phi theta r : Spin.Coord} {sig : List Spin.Index}

theorem holds_real (hsig : ∀ ix ∈ sig, ix = .single (.spherical phi theta r)) {Nphi Ntheta : Nat} (hA : Orders.Spec.Allowed .real Nphi Ntheta)
    (hs : VolumeField.Spec.Separated .real Nphi (lmaxOf .real Ntheta)) (Nr : Nat) (p : ℝ) (R : List Int → Nat → Nat → ℝ → ℝ)
    (A : List Nat → Int → Int → Nat → ℂ) (c : List Nat → Nat → Nat → Nat → ℝ) (hc : VolumeField.Spec.HoldsReal sig Nphi (lmaxOf .real Ntheta) Nr A c)
    (rows : List Nat → Nat → Nat → ℝ)
    (hB : ∀ t, VolumeField.Valid sig.length t → ∀ i j, i < (sphereShape .real Nphi (lmaxOf .real Ntheta)).1 →
      j < (sphereShape .real Nphi (lmaxOf .real Ntheta)).2 →
      Regularity.Spec.Allowed (VolumeField.group .real Nphi (lmaxOf .real Ntheta) i j).2.toNat (VolumeField.regs t) →
      rows t i j = VolumeField.series R Nr (VolumeField.group .real Nphi (lmaxOf .real Ntheta) i j).2.toNat p t (c t i j)) :
    SphereField.Spec.HoldsReal sig Nphi (lmaxOf .real Ntheta) (VolumeField.Spec.spinCoefficient R sig.length Nr A p)
      (VolumeField.backwardRegularity (VolumeField.ellMaps .real Nphi (lmaxOf .real Ntheta)) sig.length rows) := by
  intro t ht i j m l hi hj e
  have htv := (VolumeField.component_iff hsig t).1 ht
  rw [VolumeField.backward_regularity _ _ _ _ sig.length (fun _ => VolumeField.degrees hA hs) rows t htv i j hi hj,
    back_allowed _ _ _ _ (fun t' ht' ha' => hB t' ht' i j hi hj ha') t htv]
  have e' := e
  rw [VolumeField.own_group, Option.some.injEq] at e'
  rw [e', VolumeField.spin_coefficient R sig.length Nr A p t htv]
  show _ = VolumeField.rowMap i _
  rw [VolumeField.back_map]
  refine VolumeField.back_congr _ _ _ _ (fun t' ht' => ?_) t
  unfold VolumeField.series
  rw [map_sum]
  refine Finset.sum_congr rfl fun n hn => ?_
  rw [map_smul, hc t' ((VolumeField.component_iff hsig t').2 ht') i j m l n hi hj (Finset.mem_range.1 hn) e]
  rfl

theorem holds_complex (hsig : ∀ ix ∈ sig, ix = .single (.spherical phi theta r)) {Nphi Ntheta : Nat} (hA : Orders.Spec.Allowed .complex Nphi Ntheta)
    (hs : VolumeField.Spec.Separated .complex Nphi (lmaxOf .complex Ntheta)) (Nr : Nat) (p : ℝ) (R : List Int → Nat → Nat → ℝ → ℝ)
    (A : List Nat → Int → Int → Nat → ℂ) (c : List Nat → Nat → Nat → Nat → ℂ) (hc : VolumeField.Spec.HoldsComplex sig Nphi (lmaxOf .complex Ntheta) Nr A c)
    (rows : List Nat → Nat → Nat → ℂ)
    (hB : ∀ t, VolumeField.Valid sig.length t → ∀ i j, i < (sphereShape .complex Nphi (lmaxOf .complex Ntheta)).1 →
      j < (sphereShape .complex Nphi (lmaxOf .complex Ntheta)).2 →
      Regularity.Spec.Allowed (VolumeField.group .complex Nphi (lmaxOf .complex Ntheta) i j).2.toNat (VolumeField.regs t) →
      rows t i j = VolumeField.series R Nr (VolumeField.group .complex Nphi (lmaxOf .complex Ntheta) i j).2.toNat p t (c t i j)) :
    SphereField.Spec.HoldsComplex sig Nphi (lmaxOf .complex Ntheta) (VolumeField.Spec.spinCoefficient R sig.length Nr A p)
      (VolumeField.backwardRegularity (VolumeField.ellMaps .complex Nphi (lmaxOf .complex Ntheta)) sig.length rows) := by
  intro t ht i j m l hi hj e
  have htv := (VolumeField.component_iff hsig t).1 ht
  rw [VolumeField.backward_regularity _ _ _ _ sig.length (fun _ => VolumeField.degrees hA hs) rows t htv i j hi hj,
    back_allowed _ _ _ _ (fun t' ht' ha' => hB t' ht' i j hi hj ha') t htv]
  have e' := e
  rw [VolumeField.own_group, Option.some.injEq] at e'
  rw [e', VolumeField.spin_coefficient R sig.length Nr A p t htv]
  refine VolumeField.back_congr _ _ _ _ (fun t' ht' => ?_) t
  unfold VolumeField.series
  refine Finset.sum_congr rfl fun n hn => ?_
  rw [hc t' ((VolumeField.component_iff hsig t').2 ht') i j m l n hi hj (Finset.mem_range.1 hn) e]

end

/-! ## Orders -/

theorem loop_eq {V : Type} (F : Orders.Entry → V) (i : Nat) (x : V) : ∀ (maps : List Orders.Entry) (out : Nat → V),
    ((∃ e ∈ maps, e.rows.1 ≤ i ∧ i < e.rows.2) ∨ out i = x) → (∀ e ∈ maps, e.rows.1 ≤ i ∧ i < e.rows.2 → F e = x) →
    maps.foldl (fun out e => fun j => if e.rows.1 ≤ j ∧ j < e.rows.2 then F e else out j) out i = x
  | [], out, h, _ => h.elim (fun ⟨_, h, _⟩ => by simp at h) id
  | e :: l, out, h, hF => by
    rw [List.foldl_cons]
    refine loop_eq F i x l _ ?_ (fun e' he' => hF e' (List.mem_cons_of_mem _ he'))
    by_cases hc : e.rows.1 ≤ i ∧ i < e.rows.2
    · right
      rw [if_pos hc]
      exact hF e List.mem_cons_self hc
    · rcases h with ⟨e', he', h'⟩ | h
      · rcases List.mem_cons.1 he' with rfl | he'
        · exact absurd h' hc
        · exact Or.inl ⟨e', he', h'⟩
      · right
        rw [if_neg hc]
        exact h

/-- The entries of the maps on one process. -/
theorem polar_entries (disk : Bool) (d : Dtype) (Nphi Nr Ng : Nat) (h : Orders.Spec.PolarAllowed disk d Nphi Nr) (h1 : 2 < Nphi) (hg : 0 < Ng) :
    ∃ maps, polarMaps disk d Nphi Nr Ng 1 0 = some maps ∧ (∀ e ∈ maps, (nmin disk e.m).toNat < Nr ∧ e.cols = ((nmin disk e.m).toNat, Nr)) ∧
      ∀ i, i < Nphi → (∃ e ∈ maps, e.rows.1 ≤ i ∧ i < e.rows.2) ∧ ∀ e ∈ maps, e.rows.1 ≤ i ∧ i < e.rows.2 → e.m = wave d Nphi i := by
  obtain ⟨hN, h, hd⟩ := h
  have hnm : ∀ m : Int, (disk = true → m.natAbs < 2 * Nr) → (nmin disk m).toNat < Nr := by
    intro m hm
    unfold nmin
    cases disk with
    | false => simpa using hN
    | true =>
      have := hm rfl
      simp only [if_true]
      rw [Int.abs_eq_natAbs]
      omega
  have key : ∀ (b C : Nat) (v : Nat → Int), 0 < C → Rows b C v (wave d Nphi) → (∀ k, k < C → disk = true → (v k).natAbs < 2 * Nr) →
      d.parts = b → Nphi = b * C → polarGrid d Nphi 1 0 = List.range' (b * lo 1 C 0) (b * (hi 1 C 0 - lo 1 C 0)) →
      polarCoeff d Nphi 1 0 = polarGrid d Nphi 1 0 →
      ∃ maps, polarMaps disk d Nphi Nr Ng 1 0 = some maps ∧ (∀ e ∈ maps, (nmin disk e.m).toNat < Nr ∧ e.cols = ((nmin disk e.m).toNat, Nr)) ∧
      ∀ i, i < Nphi → (∃ e ∈ maps, e.rows.1 ≤ i ∧ i < e.rows.2) ∧ ∀ e ∈ maps, e.rows.1 ≤ i ∧ i < e.rows.2 → e.m = wave d Nphi i := by
    intro b C v hC hr hv hb hNC h1 h2
    obtain ⟨maps, h3, h4, -⟩ := maps_low hr (fun m => (nmin disk m).toNat) (lo 1 C 0) (hi 1 C 0) Nr Ng (hi_le 1 C 0) hg (fun k hk => hnm _ (hv k hk))
    have hlo : lo 1 C 0 = 0 := rfl
    have hhi : hi 1 C 0 = C := rfl
    refine ⟨maps, ?_, fun e he => ?_, fun i hi => ⟨?_, fun e he hc => ?_⟩⟩
    · unfold polarMaps
      rw [polarGroup_eq, h2, h1, hb]
      exact h3
    · obtain ⟨k, -, hk, rfl⟩ := (h4 e).1 he
      exact ⟨hnm _ (hv k (by omega)), rfl⟩
    · refine ⟨_, (h4 _).2 ⟨i / b, by rw [hlo]; exact Nat.zero_le _, ?_, rfl⟩, ?_⟩
      · rw [hhi, Nat.div_lt_iff_lt_mul hr.hb, Nat.mul_comm]; omega
      · simp only [polE, hlo, Nat.sub_zero]
        have := Nat.div_add_mod i b
        have := Nat.mod_lt i hr.hb
        omega
    · obtain ⟨k, -, hk, rfl⟩ := (h4 e).1 he
      simp only [polE, hlo, Nat.sub_zero] at hc ⊢
      rw [hr.wave i (by omega), show i / b = k from Nat.div_eq_of_lt_le (by rw [Nat.mul_comm]; exact hc.1) (by rw [Nat.succ_mul, Nat.mul_comm]; exact hc.2)]
  cases d with
  | real =>
    rcases h with ⟨h, -⟩ | ⟨h0, ⟨Q, rfl⟩⟩
    · cases h
    · simp only [Dtype.parts] at h0 hd
      have hQ : 0 < Q := by omega
      have hm : ¬mmax (2 * 2 * Q) = 0 := by unfold mmax; omega
      have hr := rows_real Q hQ
      refine key 2 (2 * Q) (vReal Q) (by omega) (by rw [show 2 * Dtype.real.parts * Q = 4 * Q by simp only [Dtype.parts]]; exact hr) (fun k hk hdisk => ?_) rfl
        (by simp only [Dtype.parts]; ring) ?_ ?_
      · have := hd hdisk
        unfold vReal oReal
        split <;> omega
      · unfold polarGrid polarGridChunk
        simp only [Dtype.parts, hm, if_false]
        rw [show 2 * 2 * Q = 2 * (2 * Q) by ring]
        exact rows_eq 1 2 (2 * Q) 0 (by omega)
      · unfold polarCoeff polarGrid polarRows polarGridChunk
        simp only [Dtype.parts, hm, if_false, show 2 * 2 * Q > 1 by omega, if_true]
  | complex =>
    have grid : ∀ N, polarGrid .complex N 1 0 = List.range' (1 * lo 1 N 0) (1 * (hi 1 N 0 - lo 1 N 0)) := by
      intro N
      have := rows_eq 1 1 N 0 (by omega)
      rw [Nat.one_mul N] at this
      exact this
    rcases h with ⟨-, rfl⟩ | ⟨h0, ⟨M, rfl⟩⟩
    · omega
    · simp only [Dtype.parts] at h0 hd h1
      refine key 1 (2 * M) (vComplex M) (by omega) (by rw [show 2 * 1 * M = 2 * M by ring]; exact rows_complex M (by omega))
          (fun k hk hdisk => ?_) rfl (by simp only [Dtype.parts]; ring) ?_ rfl
      · have := hd hdisk
        unfold vComplex oComplex
        split
        · omega
        · split <;> omega
      · rw [show 2 * 1 * M = 2 * M by ring]
        exact grid _

theorem polar_loop {V : Type} [AddCommGroup V] [Module ℝ V] (disk : Bool) (d : Dtype) (Nphi Nr : Nat) (maps : List Orders.Entry)
    (h1 : ∀ e ∈ maps, (nmin disk e.m).toNat < Nr ∧ e.cols = ((nmin disk e.m).toNat, Nr))
    (h2 : ∀ i, i < Nphi → (∃ e ∈ maps, e.rows.1 ≤ i ∧ i < e.rows.2) ∧ ∀ e ∈ maps, e.rows.1 ≤ i ∧ i < e.rows.2 → e.m = wave d Nphi i)
    (A : Int → Nat → ℝ) (c : Nat → Nat → V) (old : Nat → V) (i : Nat) (hi : i < Nphi) :
    polarLoop maps A c old i = ∑ n ∈ Finset.range (Nr - (nmin disk (wave d Nphi i)).toNat),
      A (wave d Nphi i) n • c i ((nmin disk (wave d Nphi i)).toNat + n) := by
  obtain ⟨h3, h4⟩ := h2 i hi
  have : polarLoop maps A c old i = maps.foldl (fun out e => fun j => if e.rows.1 ≤ j ∧ j < e.rows.2 then
      ∑ n ∈ Finset.range (e.cols.2 - e.cols.1), A e.m n • c i (e.cols.1 + n) else out j) old i := by
    unfold polarLoop
    clear h1 h2 h3 h4
    suffices ∀ (l : List Orders.Entry) (o o' : Nat → V), o i = o' i →
        l.foldl (fun out e => fun i => if e.rows.1 ≤ i ∧ i < e.rows.2 then ∑ n ∈ Finset.range (e.cols.2 - e.cols.1), A e.m n • c i (e.cols.1 + n) else out i) o i =
        l.foldl (fun out e => fun j => if e.rows.1 ≤ j ∧ j < e.rows.2 then ∑ n ∈ Finset.range (e.cols.2 - e.cols.1), A e.m n • c i (e.cols.1 + n) else out j) o' i
      from this maps old old rfl
    intro l
    induction l with
    | nil => intro o o' h; exact h
    | cons e l ih =>
      intro o o' h
      rw [List.foldl_cons, List.foldl_cons]
      exact ih _ _ (by beta_reduce; rw [h])
  rw [this]
  refine loop_eq _ i _ maps old (Or.inl h3) fun e he hc => ?_
  rw [h4 e he hc, (h1 e he).2, h4 e he hc]

section
variable {coord0 coord1 : Spin.Coord} {sig : List Spin.Index} {fs : List (Option Spin.Mat)}

theorem real_backward (h : Spin.Spec.Suitable coord0 coord1 sig) (hf : Spin.factors coord1 sig = some fs) {M : Nat} (Ng : Nat) (hM : M % 2 = 0)
    (g : List Nat → Nat → Nat → ℝ) (old : List Nat → Nat → ℝ) :
    ∃ o, Spin.backwardReal coord0 (M * Ng) sig fs (flatten M g) old = some o ∧ ∀ t, Spin.Spec.Component sig t → ∀ l x, l < M / 2 → x < Ng →
      ((unflatten M o t (2 * l) x : ℝ) : ℂ) + Complex.I * (unflatten M o t (2 * l + 1) x : ℝ) =
        Spin.backwardComplex 0 fs (fun t => g t (2 * l) x + Complex.I * g t (2 * l + 1) x) t := by
  obtain ⟨fs', _, b, f1, _, f3, f4⟩ := Spin.spin_real_complex coord0 coord1 sig h (M * Ng) (flatten M g) old
  rw [hf] at f1
  cases f1
  refine ⟨b, f3, fun t ht l x hl hx => ?_⟩
  rw [← encoded_unflatten b hM, (f4 _ (flat_lt hM hl hx) t ht).2]
  congr 1
  funext t
  exact encoded_flatten g hM hl t

/-- The recombination of real rows. -/
theorem polar_real (h : Spin.Spec.Suitable coord0 coord1 sig) (hf : Spin.factors coord1 sig = some fs) {Nphi : Nat} (hA : PolarField.Spec.Accepted .real Nphi)
    (Nr : Nat) (p : ℝ) (R : Int → Int → Nat → ℝ → ℝ) (s : List Nat → Int) (a : List Nat → Int → Nat → ℂ) (c : List Nat → Nat → Nat → ℝ)
    (hc : PolarField.Spec.HoldsReal sig Nphi Nr a c) (out : List Nat → Nat → ℝ)
    (hout : ∀ t, Spin.Spec.Component sig t → ∀ i, i < polarRows .real Nphi →
      out t i = ∑ n ∈ Finset.range Nr, R (s t) (wave .real Nphi i) n p * c t i n) :
    ∃ g, polarReal coord0 coord1 sig (polarRows .real Nphi) out = some g ∧
      ∀ t, Spin.Spec.Component sig t → ∀ i, i < polarRows .real Nphi → g t i =
        SphereField.Spec.rowPart (PolarField.Spec.part R fs s Nr a (wave .real Nphi i) p t) i := by
  have hrows := real_rows Nphi Nphi hA.allowed
  rw [← PolarField.rows_real hA] at hrows
  unfold polarReal
  rw [hf, Option.bind_some]
  obtain ⟨o, ho, hov⟩ := real_backward h hf 1 hrows.1 (fun t i (_ : Nat) => out t i) (flatten (polarRows .real Nphi) fun t i (_ : Nat) => out t i)
  simp only [ho]
  refine ⟨_, rfl, fun t ht i hi => ?_⟩
  refine pair_row (y := fun r => unflatten (polarRows .real Nphi) o t r 0) (l := i / 2) ?_ i rfl
  rw [hov t ht (i / 2) 0 (by omega) (by omega)]
  unfold PolarField.Spec.part
  refine backward_congr h hf _ _ (fun t ht => ?_) t ht
  have hw1 := hrows.2.2 (i / 2) (by omega)
  rw [hout t ht _ (by omega), hout t ht _ (by omega), hw1, PolarField.wave_pair hA i hi]
  rw [Finset.sum_congr rfl fun n hn => by rw [hc t ht _ n (by omega) (Finset.mem_range.1 hn)],
    Finset.sum_congr (s₁ := Finset.range Nr) (f := fun n => R (s t) (wave .real Nphi i) n p * c t (2 * (i / 2) + 1) n) rfl fun n hn => by
      rw [hc t ht _ n (by omega) (Finset.mem_range.1 hn)], hw1, PolarField.wave_pair hA i hi, PolarField.rowPart_sum, PolarField.rowPart_sum, row_pair]
  rfl

end

end Dedalus.RadialInterp
