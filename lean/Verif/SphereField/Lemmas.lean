import Verif.SphereField.Model
import Verif.SphereField.Spec
import Verif.Spin.Props
import Verif.Orders.Props
import Verif.Fourier.Props

namespace Dedalus.SphereField
open Orders Orders.Spec

/-! ## Recombination -/

theorem valid_component (sig : List Spin.Index) (t : List Nat) (h : Spin.Valid (sig.map Spin.Index.dim) t) : Spin.Spec.Component sig t := by
  unfold Spin.Spec.Component
  induction sig generalizing t with
  | nil =>
    have : t = [] := List.length_eq_zero_iff.1 (by simpa using h.1)
    subst this
    exact .nil
  | cons ix sig ih =>
    cases t with
    | nil => have := h.1; simp at this
    | cons x t => exact .cons (h.2 0 ix.dim x rfl rfl) (ih t ⟨by simpa using h.1, fun k d y h1 h2 => h.2 (k + 1) d y h1 h2⟩)

theorem unitary_shapes (dims : List Nat) : ∀ (fs : List (Option Spin.Mat)) (i : Nat), Spin.Unitary dims i fs → Spin.Shapes dims i fs
  | [], _, _ => trivial
  | none :: fs, i, h => unitary_shapes dims fs (i + 1) h
  | some _ :: fs, i, h => ⟨h.1, h.2.1.2.1, unitary_shapes dims fs (i + 1) h.2.2.2⟩

section
variable {coord0 coord1 : Spin.Coord} {sig : List Spin.Index} {fs : List (Option Spin.Mat)}

theorem factors_unitary (h : Spin.Spec.Suitable coord0 coord1 sig) (hf : Spin.factors coord1 sig = some fs) :
    Spin.Unitary (sig.map Spin.Index.dim) 0 fs := by
  obtain ⟨fs', f1, _, f3⟩ := Spin.factors_unitary h.1 h.2.1 (sig.map Spin.Index.dim) sig 0 h.2.2 (Spin.dims_get sig)
  rw [hf] at f1
  cases f1
  exact f3

theorem backward_congr (h : Spin.Spec.Suitable coord0 coord1 sig) (hf : Spin.factors coord1 sig = some fs) (u v : Spin.Comps)
    (huv : ∀ t, Spin.Spec.Component sig t → u t = v t) (t : List Nat) (ht : Spin.Spec.Component sig t) :
    Spin.backwardComplex 0 fs u t = Spin.backwardComplex 0 fs v t := by
  simp only [Spin.backward_along]
  exact Spin.along_congr Spin.Mat.dag (fun A _ => rfl) (sig.map Spin.Index.dim) fs 0 u v (unitary_shapes _ _ _ (factors_unitary h hf))
    (fun t ht => huv t (valid_component sig t ht)) t (Spin.component_valid ht)

theorem forward_congr (h : Spin.Spec.Suitable coord0 coord1 sig) (hf : Spin.factors coord1 sig = some fs) (u v : Spin.Comps)
    (huv : ∀ t, Spin.Spec.Component sig t → u t = v t) (t : List Nat) (ht : Spin.Spec.Component sig t) :
    Spin.forwardComplex 0 fs u t = Spin.forwardComplex 0 fs v t := by
  simp only [Spin.forward_along]
  exact Spin.along_congr id (fun A h => h) (sig.map Spin.Index.dim) fs 0 u v (unitary_shapes _ _ _ (factors_unitary h hf))
    (fun t ht => huv t (valid_component sig t ht)) t (Spin.component_valid ht)

theorem forward_backward (h : Spin.Spec.Suitable coord0 coord1 sig) (hf : Spin.factors coord1 sig = some fs) (u : Spin.Comps)
    (t : List Nat) (ht : Spin.Spec.Component sig t) : Spin.forwardComplex 0 fs (Spin.backwardComplex 0 fs u) t = u t := by
  simp only [Spin.forward_along, Spin.backward_along]
  exact (Spin.along_inv _ fs 0 u t (factors_unitary h hf) (Spin.component_valid ht)).2

/-- The recombinations multiply by complex matrices. -/
theorem forward_smul (z : ℂ) : ∀ (fs : List (Option Spin.Mat)) (i : Nat) (u : Spin.Comps) (t : List Nat),
    Spin.forwardComplex i fs (fun t => z * u t) t = z * Spin.forwardComplex i fs u t
  | [], _, _, _ => rfl
  | none :: fs, i, u, t => by simp only [Spin.forwardComplex]; exact forward_smul z fs (i + 1) u t
  | some A :: fs, i, u, t => by
    simp only [Spin.forwardComplex]
    rw [← forward_smul z fs (i + 1)]
    congr 1
    funext t
    unfold Spin.applyAxis
    rw [Finset.mul_sum]
    exact Finset.sum_congr rfl fun j _ => by ring

theorem flat_row {M x l : Nat} (hM : M % 2 = 0) (hl : l < M / 2) (b : Nat) (hb : b < 2) :
    (2 * (x * (M / 2) + l) + b) % M = 2 * l + b ∧ (2 * (x * (M / 2) + l) + b) / M = x := by
  obtain ⟨n, rfl⟩ : ∃ n, M = 2 * n := ⟨M / 2, by omega⟩
  have e : 2 * (x * (2 * n / 2) + l) + b = 2 * l + b + 2 * n * x := by rw [Nat.mul_div_cancel_left n (by omega)]; ring
  have hlt : 2 * l + b < 2 * n := by omega
  rw [e, Nat.add_mul_mod_self_left, Nat.mod_eq_of_lt hlt, Nat.add_mul_div_left _ _ (by omega), Nat.div_eq_of_lt hlt]
  omega

theorem flat_lt {M Ng x l : Nat} (hM : M % 2 = 0) (hl : l < M / 2) (hx : x < Ng) : x * (M / 2) + l < M * Ng / 2 := by
  obtain ⟨n, rfl⟩ : ∃ n, M = 2 * n := ⟨M / 2, by omega⟩
  rw [Nat.mul_div_cancel_left n (by omega)] at *
  rw [Nat.mul_assoc, Nat.mul_div_cancel_left _ (by omega : 0 < 2)]
  calc x * n + l < x * n + n := by omega
    _ = (x + 1) * n := by ring
    _ ≤ Ng * n := Nat.mul_le_mul_right n (by omega)
    _ = n * Ng := Nat.mul_comm _ _

theorem flat_pos {M x l : Nat} (hM : M % 2 = 0) : 2 * (x * (M / 2) + l) = x * M + 2 * l := by
  obtain ⟨n, rfl⟩ : ∃ n, M = 2 * n := ⟨M / 2, by omega⟩
  rw [Nat.mul_div_cancel_left n (by omega)]
  ring

theorem encoded_flatten (g : List Nat → Nat → Nat → ℝ) {M x l : Nat} (hM : M % 2 = 0) (hl : l < M / 2) (t : List Nat) :
    Spin.Spec.encoded (flatten M g) (x * (M / 2) + l) t = g t (2 * l) x + Complex.I * g t (2 * l + 1) x := by
  unfold Spin.Spec.encoded flatten
  have h0 := flat_row (x := x) hM hl 0 (by omega)
  have h1 := flat_row (x := x) hM hl 1 (by omega)
  rw [Nat.add_zero] at h0
  rw [h0.1, h0.2, h1.1, h1.2]
  rfl

theorem encoded_unflatten (o : List Nat → Nat → ℝ) {M x l : Nat} (hM : M % 2 = 0) (t : List Nat) :
    Spin.Spec.encoded o (x * (M / 2) + l) t = unflatten M o t (2 * l) x + Complex.I * unflatten M o t (2 * l + 1) x := by
  unfold Spin.Spec.encoded unflatten
  rw [flat_pos hM]
  rfl

theorem real_backward (h : Spin.Spec.Suitable coord0 coord1 sig) (hf : Spin.factors coord1 sig = some fs) {M : Nat} (Ng : Nat) (hM : M % 2 = 0)
    (g : List Nat → Nat → Nat → ℝ) :
    ∃ o, Spin.backwardReal coord0 (M * Ng) sig fs (flatten M g) (fun _ _ => 0) = some o ∧ ∀ t, Spin.Spec.Component sig t → ∀ l x, l < M / 2 → x < Ng →
      ((unflatten M o t (2 * l) x : ℝ) : ℂ) + Complex.I * (unflatten M o t (2 * l + 1) x : ℝ) =
        Spin.backwardComplex 0 fs (fun t => g t (2 * l) x + Complex.I * g t (2 * l + 1) x) t := by
  obtain ⟨fs', _, b, f1, _, f3, f4⟩ := Spin.spin_real_complex coord0 coord1 sig h (M * Ng) (flatten M g) (fun _ _ => 0)
  rw [hf] at f1
  cases f1
  refine ⟨b, f3, fun t ht l x hl hx => ?_⟩
  rw [← encoded_unflatten b hM, (f4 _ (flat_lt hM hl hx) t ht).2]
  congr 1
  funext t
  exact encoded_flatten g hM hl t

theorem real_forward (h : Spin.Spec.Suitable coord0 coord1 sig) (hf : Spin.factors coord1 sig = some fs) {M : Nat} (Ng : Nat) (hM : M % 2 = 0)
    (g : List Nat → Nat → Nat → ℝ) :
    ∃ o, Spin.forwardReal coord0 (M * Ng) sig fs (flatten M g) (fun _ _ => 0) = some o ∧ ∀ t, Spin.Spec.Component sig t → ∀ l x, l < M / 2 → x < Ng →
      ((unflatten M o t (2 * l) x : ℝ) : ℂ) + Complex.I * (unflatten M o t (2 * l + 1) x : ℝ) =
        Spin.forwardComplex 0 fs (fun t => g t (2 * l) x + Complex.I * g t (2 * l + 1) x) t := by
  obtain ⟨fs', b, _, f1, f3, _, f4⟩ := Spin.spin_real_complex coord0 coord1 sig h (M * Ng) (flatten M g) (fun _ _ => 0)
  rw [hf] at f1
  cases f1
  refine ⟨b, f3, fun t ht l x hl hx => ?_⟩
  rw [← encoded_unflatten b hM, (f4 _ (flat_lt hM hl hx) t ht).1]
  congr 1
  funext t
  exact encoded_flatten g hM hl t

end

/-! ## Colatitude -/

section
variable {V : Type} [AddCommGroup V] [Module ℝ V]

/-- The forward transform of sums of harmonics. -/
theorem colat_forward (d : Dtype) (Nphi Ntheta Ng P p : Nat) (h : Allowed d Nphi Ntheta) (hg : lmaxOf d Ntheta < Ng) (s : Int) (q : Nat → ℝ)
    (hq : Jacobi.GridGuess Ng 0 0 q) (maps : List Entry) (hm : sphereMaps d Nphi (lmaxOf d Ntheta) Ng P p = some maps) (b : Int → Int → Nat → V)
    (g : Nat → Nat → V) (hgd : ∀ i r x, (sphereGrid d Nphi P p)[i]? = some r → x < Ng → g i x =
      ∑ l ∈ Finset.Ico (max (wave d Nphi r).natAbs s.natAbs) (lmaxOf d Ntheta + 1),
        Sphere.Spec.Y l (wave d Nphi r) s (Sphere.grid Ng q x).1 • b (wave d Nphi r) l (perm d Nphi r % d.parts)) :
    ∀ i r j, (sphereRows d Nphi (lmaxOf d Ntheta) P p)[i]? = some r → j < (sphereShape d Nphi (lmaxOf d Ntheta)).2 →
      ∃ m l, sphereGroup d Nphi (lmaxOf d Ntheta) r j = some (m, l) ∧
        Orders.forward maps (lmaxOf d Ntheta) (planForward Ng (lmaxOf d Ntheta) s q) g i j = if |s| ≤ l then b m l (r % d.parts) else 0 := by
  obtain ⟨maps', hm', ht⟩ := sphere_order_maps d Nphi Ntheta Ng P p h (by omega)
  rw [hm] at hm'
  cases hm'
  generalize lmaxOf d Ntheta = L at *
  intro i r j hr hj
  obtain ⟨m, l, h1, h2, h3, h4⟩ := ht.forward V (planForward Ng L s q)
    (fun m part x => if x < Ng then ∑ l ∈ Finset.Ico (max m.natAbs s.natAbs) (L + 1), Sphere.Spec.Y l m s (Sphere.grid Ng q x).1 • b m l part else 0)
    (fun i x => if x < Ng then g i x else 0) (by
      intro i r hr
      funext x
      by_cases hx : x < Ng
      · rw [if_pos hx, if_pos hx, hgd i r x hr hx]
      · rw [if_neg hx, if_neg hx]) i r j hr hj
  refine ⟨m, l, h1, ?_⟩
  have hcongr : ∀ (m : Int) (u v : Nat → V), (∀ x, x < Ng → u x = v x) → planForward Ng L s q m u = planForward Ng L s q m v := by
    intro m u v huv
    funext k
    unfold planForward Sphere.forward
    split
    · exact Finset.sum_congr rfl fun t ht => by rw [huv t (Finset.mem_range.1 ht)]
    · rfl
  rw [Orders.forward_congr maps L _ g (fun i x => if x < Ng then g i x else 0) (fun m i => hcongr _ _ _ fun x hx => by rw [if_pos hx]), h4]
  have hml : |m| = (m.natAbs : Int) := Int.abs_eq_natAbs m
  have hsl : |s| = (s.natAbs : Int) := Int.abs_eq_natAbs s
  unfold planForward
  rw [Sphere.swsh_forward_exact Ng L (by omega) m s (by omega) (by omega) q hq (L + 1) (fun l => b m l (r % d.parts)) _ _
    (fun x hx => by rw [if_pos hx]) _ (by omega) (by omega)]
  by_cases hs : |s| ≤ l
  · rw [if_pos hs, if_pos (by omega)]
    congr 1
    omega
  · rw [if_neg hs, if_neg (by omega)]

end

/-! ## Permutation of orders -/

theorem grid_one (d : Dtype) (Nphi Ntheta : Nat) (h : Allowed d Nphi Ntheta) : sphereGrid d Nphi 1 0 = List.range (sphereGridRows d Nphi) := by
  unfold sphereGrid
  have hdvd : ∃ C, sphereGridRows d Nphi = sphereGridChunk d Nphi * C ∧ 0 < sphereGridChunk d Nphi := by
    unfold sphereGridRows sphereGridChunk
    split
    · rcases h.2 with rfl | ⟨_, ⟨C, rfl⟩, _⟩
      · rename_i hm; exact absurd hm (by decide)
      · exact ⟨C, rfl, by cases d <;> decide⟩
    · exact ⟨1, by omega, by cases d <;> decide⟩
  obtain ⟨C, hC, hpos⟩ := hdvd
  rw [hC, rows_eq 1 _ C 0 hpos, List.range_eq_range']
  simp [lo, hi]

theorem perm_lt (d : Dtype) (Nphi Ntheta : Nat) (h : Allowed d Nphi Ntheta) (hm : mmax Nphi ≠ 0) (i : Nat) (hi : i < Nphi) : perm d Nphi i < Nphi := by
  unfold perm
  rw [if_neg hm]
  rcases h.2 with rfl | ⟨_, ⟨C, rfl⟩, _⟩
  · exact absurd rfl hm
  · cases d with
    | real =>
      simp only [Dtype.parts] at *
      rw [show 2 * 2 * C = 4 * C by ring] at *
      simp only [permReal_eq C i hi]
      split <;> omega
    | complex =>
      simp only [Dtype.parts, Sphere.permComplex] at *
      rw [show 2 * 1 * C / 2 = C by omega]
      rcases Nat.mod_two_eq_zero_or_one i with h1 | h1 <;> rw [h1] <;> omega

theorem perm_inj (d : Dtype) (Nphi Ntheta : Nat) (h : Allowed d Nphi Ntheta) (hm : mmax Nphi ≠ 0) (i j : Nat) (hi : i < Nphi) (hj : j < Nphi)
    (e : perm d Nphi i = perm d Nphi j) : i = j := by
  unfold perm at e
  rw [if_neg hm, if_neg hm] at e
  rcases h.2 with rfl | ⟨_, ⟨C, rfl⟩, _⟩
  · exact absurd rfl hm
  · cases d with
    | real =>
      simp only [Dtype.parts] at *
      rw [show 2 * 2 * C = 4 * C by ring] at *
      simp only [permReal_eq C i hi, permReal_eq C j hj] at e
      split at e <;> split at e <;> omega
    | complex =>
      simp only [Dtype.parts, Sphere.permComplex] at *
      rw [show 2 * 1 * C / 2 = C by omega] at *
      rcases Nat.mod_two_eq_zero_or_one i with h1 | h1 <;> rcases Nat.mod_two_eq_zero_or_one j with h2 | h2 <;> rw [h1, h2] at e <;> omega

theorem perm_surj (d : Dtype) (Nphi Ntheta : Nat) (h : Allowed d Nphi Ntheta) (hm : mmax Nphi ≠ 0) (k : Nat) (hk : k < Nphi) :
    ∃ i, i < Nphi ∧ perm d Nphi i = k := by
  unfold perm
  simp only [if_neg hm]
  rcases h.2 with rfl | ⟨_, ⟨C, rfl⟩, _⟩
  · exact absurd rfl hm
  · cases d with
    | real =>
      simp only [Dtype.parts] at *
      rw [show 2 * 2 * C = 4 * C by ring] at *
      by_cases h1 : k / 2 < C
      · refine ⟨4 * (k / 2) + k % 2, by omega, ?_⟩
        rw [permReal_eq C _ (by omega), if_pos (by omega)]
        omega
      · refine ⟨2 * (4 * C - 1 - 2 * (k / 2)) + k % 2, by omega, ?_⟩
        rw [permReal_eq C _ (by omega), if_neg (by omega)]
        omega
    | complex =>
      simp only [Dtype.parts, Sphere.permComplex] at *
      rw [show 2 * 1 * C / 2 = C by omega] at *
      by_cases h1 : k < C
      · exact ⟨2 * k, by omega, by rw [show 2 * k % 2 = 0 by omega]; omega⟩
      · exact ⟨2 * (k - C) + 1, by omega, by rw [show (2 * (k - C) + 1) % 2 = 1 by omega]; omega⟩

theorem backPerm_spec (d : Dtype) (Nphi Ntheta : Nat) (h : Allowed d Nphi Ntheta) (hm : mmax Nphi ≠ 0) (k : Nat) (hk : k < Nphi) :
    backPerm d Nphi k < Nphi ∧ perm d Nphi (backPerm d Nphi k) = k := by
  obtain ⟨i, hi, e⟩ := perm_surj d Nphi Ntheta h hm k hk
  have hmem : k ∈ (List.range Nphi).map (perm d Nphi) := List.mem_map.2 ⟨i, List.mem_range.2 hi, e⟩
  have hlt := List.idxOf_lt_length_of_mem hmem
  have hget := List.getElem_idxOf hlt
  simp only [List.length_map, List.length_range] at hlt
  simp only [List.getElem_map, List.getElem_range] at hget
  exact ⟨hlt, hget⟩

theorem backPerm_perm (d : Dtype) (Nphi Ntheta : Nat) (h : Allowed d Nphi Ntheta) (hm : mmax Nphi ≠ 0) (i : Nat) (hi : i < Nphi) :
    backPerm d Nphi (perm d Nphi i) = i := by
  obtain ⟨h1, h2⟩ := backPerm_spec d Nphi Ntheta h hm _ (perm_lt d Nphi Ntheta h hm i hi)
  exact perm_inj d Nphi Ntheta h hm _ _ h1 hi h2

end Dedalus.SphereField
