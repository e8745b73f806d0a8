import Verif.VolumeField.Lemmas
import Verif.PolarField.Plans

namespace Dedalus.VolumeField
open Orders SphereField

/-! ## Signatures over the spherical coordinates -/

section
variable {phi theta r : Spin.Coord} {sig : List Spin.Index}

theorem suitable (h0 : phi.azimuthal = true) (h1 : theta.azimuthal = false) (hsig : ∀ ix ∈ sig, ix = .single (.spherical phi theta r)) :
    Spin.Spec.Suitable phi theta sig := by
  refine ⟨h0, h1, fun ix hix => .inr ?_⟩
  rw [hsig ix hix]
  exact .spherical phi theta r (by simp [Spin.Coord.eq]) (by simp [Spin.Coord.eq])

theorem component_iff (hsig : ∀ ix ∈ sig, ix = .single (.spherical phi theta r)) (t : List Nat) : Spin.Spec.Component sig t ↔ Valid sig.length t := by
  unfold Spin.Spec.Component Valid
  induction sig generalizing t with
  | nil =>
    rw [List.forall₂_nil_right_iff, List.length_nil, List.length_eq_zero_iff]
    constructor
    · rintro rfl; simp
    · exact fun h => h.1
  | cons ix sig ih =>
    have hix : ix.dim = 3 := by rw [hsig ix (by simp)]; rfl
    cases t with
    | nil => simp
    | cons x t =>
      rw [List.forall₂_cons, ih (fun ix hix => hsig ix (by simp [hix])), hix]
      simp only [List.length_cons, Nat.add_right_cancel_iff, List.mem_cons, forall_eq_or_imp]
      tauto

theorem spin_regs (h0 : phi.azimuthal = true) (h1 : theta.azimuthal = false) (hsig : ∀ ix ∈ sig, ix = .single (.spherical phi theta r)) (t : List Nat)
    (ht : Valid sig.length t) : spinWeight theta sig t = (regs t).sum := by
  induction sig generalizing t with
  | nil =>
    have : t = [] := List.length_eq_zero_iff.1 ht.1
    subst this
    rfl
  | cons ix sig ih =>
    cases t with
    | nil => simp [Valid] at ht
    | cons x t =>
      have hv : Valid sig.length t := ⟨by simpa using ht.1, fun y hy => ht.2 y (by simp [hy])⟩
      rw [spinWeight, ih (fun ix hix => hsig ix (by simp [hix])) t hv, hsig ix (by simp)]
      show _ = Regularity.ordering.getD x 0 + (regs t).sum
      congr 1
      have hix : Spin.indexOf theta (Spin.Index.single (.spherical phi theta r)).coords = some 1 := by
        simp [Spin.indexOf, Spin.Index.coords, Spin.Cs.coords, Spin.Coord.eq, List.findIdx?_cons, h0, h1]
      unfold SphereField.indexSpin
      rw [hix]
      have hx := ht.2 x (by simp)
      have : x = 0 ∨ x = 1 ∨ x = 2 := by omega
      rcases this with rfl | rfl | rfl <;> rfl

theorem check_some (hsig : ∀ ix ∈ sig, ix = .single (.spherical phi theta r)) : checkSignature (.spherical phi theta r) sig = some () := by
  unfold checkSignature
  rw [if_pos]
  rw [List.all_eq_true]
  exact fun ix hix => decide_eq_true (hsig ix hix)

end

theorem gather_some {α : Type} (zero : α) (Ng : Nat) (f : Nat → Option α) (h : ∀ x, x < Ng → ∃ v, f x = some v) :
    ∃ w, gather zero Ng f = some w ∧ ∀ x, x < Ng → f x = some (w x) := by
  refine ⟨fun x => (f x).getD zero, ?_, fun x hx => ?_⟩
  · unfold gather
    rw [if_pos]
    rw [List.all_eq_true]
    intro x hx
    obtain ⟨v, hv⟩ := h x (List.mem_range.1 hx)
    rw [hv]
    rfl
  · obtain ⟨v, hv⟩ := h x hx
    simp [hv]

/-! ## Coefficients at one radius -/

theorem back_map {V W : Type} [AddCommGroup V] [Module ℝ V] [AddCommGroup W] [Module ℝ W] (φ : V →ₗ[ℝ] W) (ell rank : Nat) (u : List Nat → V) (t : List Nat) :
    φ (back ell rank u t) = back ell rank (fun t => φ (u t)) t := by
  unfold back
  rw [map_list_sum, List.map_map]
  congr 1
  exact List.map_congr_left fun t' _ => by simp

/-- the row of a complex number -/
noncomputable def rowMap (i : Nat) : ℂ →ₗ[ℝ] ℝ where
  toFun z := SphereField.Spec.rowPart z i
  map_add' a b := by unfold SphereField.Spec.rowPart; split <;> simp
  map_smul' a b := by unfold SphereField.Spec.rowPart; split <;> simp

theorem spin_coefficient (R : List Int → Nat → Nat → ℝ → ℝ) (rank Nr : Nat) (A : List Nat → Int → Int → Nat → ℂ) (r : ℝ) (t : List Nat) (ht : Valid rank t)
    (m l : Int) : Spec.spinCoefficient R rank Nr A r t m l = back l.toNat rank (fun t' => series R Nr l.toNat r t' (A t' m l)) t := by
  unfold Spec.spinCoefficient back series
  congr 1
  refine List.map_congr_left fun t' ht' => ?_
  rw [← regs_numbers ht, ← regs_numbers ((mem_indices rank t').1 ht'), ← Complex.real_smul]
  simp only [← Complex.real_smul]

section
variable {phi theta r : Spin.Coord} {sig : List Spin.Index}

theorem holds_real (hsig : ∀ ix ∈ sig, ix = .single (.spherical phi theta r)) {Nphi Ntheta : Nat} (hA : Orders.Spec.Allowed .real Nphi Ntheta)
    (hs : 0 < sig.length → Spec.Separated .real Nphi (lmaxOf .real Ntheta)) (Nr Ng : Nat) (plan : List Nat → (Nat → Nat → Nat → ℝ) → Nat → Nat → Nat → ℝ) (f rad : Nat → ℝ)
    (R : List Int → Nat → Nat → ℝ → ℝ) (A : List Nat → Int → Int → Nat → ℂ) (c : List Nat → Nat → Nat → Nat → ℝ)
    (hc : Spec.HoldsReal sig Nphi (lmaxOf .real Ntheta) Nr A c)
    (hB : ∀ t, Valid sig.length t → ∀ i j x, i < (sphereShape .real Nphi (lmaxOf .real Ntheta)).1 → j < (sphereShape .real Nphi (lmaxOf .real Ntheta)).2 →
      x < Ng → f x • plan t (c t) i j x = series R Nr (group .real Nphi (lmaxOf .real Ntheta) i j).2.toNat (rad x) t (c t i j)) (x : Nat) (hx : x < Ng) :
    SphereField.Spec.HoldsReal sig Nphi (lmaxOf .real Ntheta) (Spec.spinCoefficient R sig.length Nr A (rad x))
      (fun t i j => radiusBackward (ellMaps .real Nphi (lmaxOf .real Ntheta)) sig.length plan f c t i j x) := by
  intro t ht i j m l hi hj e
  have htv := (component_iff hsig t).1 ht
  beta_reduce
  rw [radius_backward _ _ _ _ sig.length Nr Ng (fun h => degrees hA (hs h)) plan f rad R c hB t htv i j x hi hj hx]
  have e' := e
  rw [own_group, Option.some.injEq] at e'
  rw [e', spin_coefficient R sig.length Nr A (rad x) t htv]
  show _ = rowMap i _
  rw [back_map]
  refine back_congr _ _ _ _ (fun t' ht' => ?_) t
  unfold series
  rw [map_sum]
  refine Finset.sum_congr rfl fun n hn => ?_
  rw [map_smul, hc t' ((component_iff hsig t').2 ht') i j m l n hi hj (Finset.mem_range.1 hn) e]
  rfl

theorem holds_complex (hsig : ∀ ix ∈ sig, ix = .single (.spherical phi theta r)) {Nphi Ntheta : Nat} (hA : Orders.Spec.Allowed .complex Nphi Ntheta)
    (hs : 0 < sig.length → Spec.Separated .complex Nphi (lmaxOf .complex Ntheta)) (Nr Ng : Nat) (plan : List Nat → (Nat → Nat → Nat → ℂ) → Nat → Nat → Nat → ℂ)
    (f rad : Nat → ℝ) (R : List Int → Nat → Nat → ℝ → ℝ) (A : List Nat → Int → Int → Nat → ℂ) (c : List Nat → Nat → Nat → Nat → ℂ)
    (hc : Spec.HoldsComplex sig Nphi (lmaxOf .complex Ntheta) Nr A c)
    (hB : ∀ t, Valid sig.length t → ∀ i j x, i < (sphereShape .complex Nphi (lmaxOf .complex Ntheta)).1 →
      j < (sphereShape .complex Nphi (lmaxOf .complex Ntheta)).2 → x < Ng →
      f x • plan t (c t) i j x = series R Nr (group .complex Nphi (lmaxOf .complex Ntheta) i j).2.toNat (rad x) t (c t i j)) (x : Nat) (hx : x < Ng) :
    SphereField.Spec.HoldsComplex sig Nphi (lmaxOf .complex Ntheta) (Spec.spinCoefficient R sig.length Nr A (rad x))
      (fun t i j => radiusBackward (ellMaps .complex Nphi (lmaxOf .complex Ntheta)) sig.length plan f c t i j x) := by
  intro t ht i j m l hi hj e
  have htv := (component_iff hsig t).1 ht
  beta_reduce
  rw [radius_backward _ _ _ _ sig.length Nr Ng (fun h => degrees hA (hs h)) plan f rad R c hB t htv i j x hi hj hx]
  have e' := e
  rw [own_group, Option.some.injEq] at e'
  rw [e', spin_coefficient R sig.length Nr A (rad x) t htv]
  refine back_congr _ _ _ _ (fun t' ht' => ?_) t
  unfold series
  refine Finset.sum_congr rfl fun n hn => ?_
  rw [hc t' ((component_iff hsig t').2 ht') i j m l n hi hj (Finset.mem_range.1 hn) e]

/-! ## Values -/

theorem values_real (h0 : phi.azimuthal = true) (h1 : theta.azimuthal = false) (hsig : ∀ ix ∈ sig, ix = .single (.spherical phi theta r)) {Nphi Ntheta : Nat}
    (hA : Orders.Spec.Allowed .real Nphi Ntheta) (hs : 0 < sig.length → Spec.Separated .real Nphi (lmaxOf .real Ntheta)) (N Nt Nr Ng : Nat)
    (hNt : lmaxOf .real Ntheta < Nt) (hN : Nphi ≤ N) (q : Nat → ℝ) (hq : Jacobi.GridGuess Nt 0 0 q)
    (plan : List Nat → (Nat → Nat → Nat → ℝ) → Nat → Nat → Nat → ℝ) (f rad : Nat → ℝ)
    (R : List Int → Nat → Nat → ℝ → ℝ) (A : List Nat → Int → Int → Nat → ℂ) (c : List Nat → Nat → Nat → Nat → ℝ)
    (hc : Spec.HoldsReal sig Nphi (lmaxOf .real Ntheta) Nr A c)
    (hB : ∀ t, Valid sig.length t → ∀ i j x, i < (sphereShape .real Nphi (lmaxOf .real Ntheta)).1 → j < (sphereShape .real Nphi (lmaxOf .real Ntheta)).2 →
      x < Ng → f x • plan t (c t) i j x = series R Nr (group .real Nphi (lmaxOf .real Ntheta) i j).2.toNat (rad x) t (c t i j)) :
    ∃ fs u, Spin.factors theta sig = some fs ∧ toGridReal phi theta r sig Nphi (lmaxOf .real Ntheta) N Nt Ng q plan f c = some u ∧
      ∀ t, Spin.Spec.Component sig t → ∀ x j y, x < Ng → y < Nt → u x t j y =
        SphereField.Spec.realValue fs (spinWeight theta sig) (lmaxOf .real Ntheta) (mmax Nphi) (Spec.spinCoefficient R sig.length Nr A (rad x))
          (Sphere.grid Nt q y).1 (Fourier.Spec.grid N j) t := by
  obtain ⟨fs, hf, -⟩ := Spin.spin_round_trip_complex phi theta sig (suitable h0 h1 hsig)
  have hv := fun x hx => sphere_values_real (suitable h0 h1 hsig) Nphi Ntheta N Nt hA hNt hN q hq _ _ (holds_real hsig hA hs Nr Ng plan f rad R A c hc hB x hx)
  unfold toGridReal
  rw [check_some hsig]
  obtain ⟨w, hw, hw'⟩ := gather_some (fun (_ : List Nat) (_ _ : Nat) => (0 : ℝ)) Ng (fun x => SphereField.toGridReal phi theta sig Nphi (lmaxOf .real Ntheta) N Nt q
    fun t i j => radiusBackward (ellMaps .real Nphi (lmaxOf .real Ntheta)) sig.length plan f c t i j x) (fun x hx => by
      obtain ⟨_, u, _, hu, _⟩ := hv x hx
      exact ⟨u, hu⟩)
  refine ⟨fs, w, hf, hw, fun t ht x j y hx hy => ?_⟩
  obtain ⟨fs', u, hf', hu, h⟩ := hv x hx
  rw [hf] at hf'
  cases hf'
  rw [hw' x hx] at hu
  cases hu
  exact h t ht j y hy

theorem values_complex (h0 : phi.azimuthal = true) (h1 : theta.azimuthal = false) (hsig : ∀ ix ∈ sig, ix = .single (.spherical phi theta r))
    {Nphi Ntheta : Nat} (hA : Orders.Spec.Allowed .complex Nphi Ntheta) (hs : 0 < sig.length → Spec.Separated .complex Nphi (lmaxOf .complex Ntheta)) (N Nt Nr Ng : Nat)
    (hNt : lmaxOf .complex Ntheta < Nt) (hN : Nphi ≤ N) (q : Nat → ℝ) (hq : Jacobi.GridGuess Nt 0 0 q)
    (plan : List Nat → (Nat → Nat → Nat → ℂ) → Nat → Nat → Nat → ℂ) (f rad : Nat → ℝ)
    (R : List Int → Nat → Nat → ℝ → ℝ) (A : List Nat → Int → Int → Nat → ℂ) (c : List Nat → Nat → Nat → Nat → ℂ)
    (hc : Spec.HoldsComplex sig Nphi (lmaxOf .complex Ntheta) Nr A c)
    (hB : ∀ t, Valid sig.length t → ∀ i j x, i < (sphereShape .complex Nphi (lmaxOf .complex Ntheta)).1 →
      j < (sphereShape .complex Nphi (lmaxOf .complex Ntheta)).2 → x < Ng →
      f x • plan t (c t) i j x = series R Nr (group .complex Nphi (lmaxOf .complex Ntheta) i j).2.toNat (rad x) t (c t i j)) :
    ∃ fs u, Spin.factors theta sig = some fs ∧ toGridComplex phi theta r sig Nphi (lmaxOf .complex Ntheta) N Nt Ng q plan f c = some u ∧
      ∀ t, Spin.Spec.Component sig t → ∀ x j y, x < Ng → y < Nt → u x t j y =
        SphereField.Spec.complexValue fs (spinWeight theta sig) (lmaxOf .complex Ntheta) (mmax Nphi) (Spec.spinCoefficient R sig.length Nr A (rad x))
          (Sphere.grid Nt q y).1 (Fourier.Spec.grid N j) t := by
  obtain ⟨fs, hf, -⟩ := Spin.spin_round_trip_complex phi theta sig (suitable h0 h1 hsig)
  have hv := fun x hx => sphere_values_complex (suitable h0 h1 hsig) Nphi Ntheta N Nt hA hNt hN q hq _ _
    (holds_complex hsig hA hs Nr Ng plan f rad R A c hc hB x hx)
  unfold toGridComplex
  rw [check_some hsig]
  obtain ⟨w, hw, hw'⟩ := gather_some (fun (_ : List Nat) (_ _ : Nat) => (0 : ℂ)) Ng (fun x => SphereField.toGridComplex theta sig Nphi (lmaxOf .complex Ntheta) N Nt q
    fun t i j => radiusBackward (ellMaps .complex Nphi (lmaxOf .complex Ntheta)) sig.length plan f c t i j x) (fun x hx => by
      obtain ⟨_, u, _, hu, _⟩ := hv x hx
      exact ⟨u, hu⟩)
  refine ⟨fs, w, hf, hw, fun t ht x j y hx hy => ?_⟩
  obtain ⟨fs', u, hf', hu, h⟩ := hv x hx
  rw [hf] at hf'
  cases hf'
  rw [hw' x hx] at hu
  cases hu
  exact h t ht j y hy

/-! ## Round trips -/

theorem round_trip_real (h0 : phi.azimuthal = true) (h1 : theta.azimuthal = false) (hsig : ∀ ix ∈ sig, ix = .single (.spherical phi theta r))
    {Nphi Ntheta : Nat} (hA : Orders.Spec.Allowed .real Nphi Ntheta) (hs : 0 < sig.length → Spec.Separated .real Nphi (lmaxOf .real Ntheta)) (N Nt Nr Ng : Nat)
    (hNt : lmaxOf .real Ntheta < Nt) (hN : Nphi ≤ N) (q : Nat → ℝ) (hq : Jacobi.GridGuess Nt 0 0 q)
    (planB planF : List Nat → (Nat → Nat → Nat → ℝ) → Nat → Nat → Nat → ℝ) (f f' rad : Nat → ℝ)
    (R : List Int → Nat → Nat → ℝ → ℝ) (kept : List Int → Nat → Nat → Prop) (A : List Nat → Int → Int → Nat → ℂ) (c : List Nat → Nat → Nat → Nat → ℝ)
    (hc : Spec.HoldsReal sig Nphi (lmaxOf .real Ntheta) Nr A c)
    (hB : ∀ t, Valid sig.length t → ∀ i j x, i < (sphereShape .real Nphi (lmaxOf .real Ntheta)).1 → j < (sphereShape .real Nphi (lmaxOf .real Ntheta)).2 →
      x < Ng → f x • planB t (c t) i j x = series R Nr (group .real Nphi (lmaxOf .real Ntheta) i j).2.toNat (rad x) t (c t i j))
    (hF : open Classical in ∀ t, Valid sig.length t → ∀ (u b : Nat → Nat → Nat → ℝ),
      (∀ i j x, i < (sphereShape .real Nphi (lmaxOf .real Ntheta)).1 → j < (sphereShape .real Nphi (lmaxOf .real Ntheta)).2 → x < Ng →
        u i j x = f' x • series R Nr (group .real Nphi (lmaxOf .real Ntheta) i j).2.toNat (rad x) t (b i j)) →
      ∀ i j n, i < (sphereShape .real Nphi (lmaxOf .real Ntheta)).1 → j < (sphereShape .real Nphi (lmaxOf .real Ntheta)).2 → n < Nr →
        planF t u i j n = if kept (regs t) (group .real Nphi (lmaxOf .real Ntheta) i j).2.toNat n then b i j n else 0)
    (hreal : ∀ fs, Spin.factors theta sig = some fs → ∀ t, Spin.Spec.Component sig t → ∀ (x : Nat) (z : ℝ), x < Ng → -1 < z → z < 1 →
      (SphereField.Spec.part fs (spinWeight theta sig) (lmaxOf .real Ntheta) (Spec.spinCoefficient R sig.length Nr A (rad x)) 0 z t).im = 0) :
    ∃ u c', toGridReal phi theta r sig Nphi (lmaxOf .real Ntheta) N Nt Ng q planB f c = some u ∧
      toCoeffReal phi theta r sig Nphi (lmaxOf .real Ntheta) N Nt Ng q planF f' u = some c' ∧
      ∀ t, Spin.Spec.Component sig t → ∀ i j n, i < (sphereShape .real Nphi (lmaxOf .real Ntheta)).1 → j < (sphereShape .real Nphi (lmaxOf .real Ntheta)).2 →
        n < Nr → ∃ (m : Int) (l : Nat), sphereGroup .real Nphi (lmaxOf .real Ntheta) i j = some (m, (l : Int)) ∧
          open Classical in
          c' t i j n = if Regularity.Spec.Allowed l (Spec.numbers t) ∧ kept (Spec.numbers t) l n then c t i j n else 0 := by
  classical
  have hv := fun x hx => sphere_round_trip_real (suitable h0 h1 hsig) Nphi Ntheta N Nt hA hNt hN q hq _ _
    (holds_real hsig hA hs Nr Ng planB f rad R A c hc hB x hx) (fun fs hfs t ht z hz hz' => hreal fs hfs t ht x z hx hz hz')
  unfold toGridReal toCoeffReal
  rw [check_some hsig]
  obtain ⟨w, hw, hw'⟩ := gather_some (fun (_ : List Nat) (_ _ : Nat) => (0 : ℝ)) Ng (fun x => SphereField.toGridReal phi theta sig Nphi (lmaxOf .real Ntheta) N Nt q
    fun t i j => radiusBackward (ellMaps .real Nphi (lmaxOf .real Ntheta)) sig.length planB f c t i j x) (fun x hx => by
      obtain ⟨u, _, hu, _⟩ := hv x hx
      exact ⟨u, hu⟩)
  obtain ⟨v, hv1, hv2⟩ := gather_some (fun (_ : List Nat) (_ _ : Nat) => (0 : ℝ)) Ng
    (fun x => SphereField.toCoeffReal phi theta sig Nphi (lmaxOf .real Ntheta) N Nt q (w x)) (fun x hx => by
      obtain ⟨u, c', hu, hc', _⟩ := hv x hx
      rw [hw' x hx] at hu
      cases hu
      exact ⟨c', hc'⟩)
  refine ⟨w, _, hw, by rw [Option.bind_some, hv1]; rfl, fun t ht i j n hi hj hn => ?_⟩
  have htv := (component_iff hsig t).1 ht
  obtain ⟨hr1, hr2⟩ := degree_range hA i j hi hj
  obtain ⟨l, hl⟩ := Int.eq_ofNat_of_zero_le ((abs_nonneg _).trans hr1)
  refine ⟨(group .real Nphi (lmaxOf .real Ntheta) i j).1, l, by rw [own_group, ← hl], ?_⟩
  have hg : ∀ t, Valid sig.length t → ∀ i j x, i < (sphereShape .real Nphi (lmaxOf .real Ntheta)).1 → j < (sphereShape .real Nphi (lmaxOf .real Ntheta)).2 →
      x < Ng → v x t i j = back (group .real Nphi (lmaxOf .real Ntheta) i j).2.toNat sig.length
        (fun t => series R Nr (group .real Nphi (lmaxOf .real Ntheta) i j).2.toNat (rad x) t (c t i j)) t := by
    intro t htv i j x hi hj hx
    obtain ⟨u, c', hu, hc', h⟩ := hv x hx
    rw [hw' x hx] at hu
    cases hu
    rw [hv2 x hx] at hc'
    cases hc'
    obtain ⟨m, l, e, h⟩ := h t ((component_iff hsig t).2 htv) i j hi hj
    obtain ⟨hr1, hr2⟩ := degree_range hA i j hi hj
    rw [own_group, Option.some.injEq] at e
    have el : l = (group .real Nphi (lmaxOf .real Ntheta) i j).2 := by rw [e]
    rw [h, radius_backward _ _ _ _ sig.length Nr Ng (fun h => degrees hA (hs h)) planB f rad R c hB t htv i j x hi hj hx]
    split
    · rfl
    · rename_i hlt
      rw [back_spin _ _ _ _ htv]
      rw [← spin_regs h0 h1 hsig t htv]
      have h0l := (abs_nonneg _).trans hr1
      rw [el] at hlt
      omega
  beta_reduce
  rw [radius_forward _ _ _ _ sig.length Nr Ng (fun h => degrees hA (hs h)) planF f' rad R kept _ c hF hg t htv i j n hi hj hn]
  simp only [hl, regs_numbers htv]
  rfl

theorem round_trip_complex (h0 : phi.azimuthal = true) (h1 : theta.azimuthal = false) (hsig : ∀ ix ∈ sig, ix = .single (.spherical phi theta r))
    {Nphi Ntheta : Nat} (hA : Orders.Spec.Allowed .complex Nphi Ntheta) (hs : 0 < sig.length → Spec.Separated .complex Nphi (lmaxOf .complex Ntheta)) (N Nt Nr Ng : Nat)
    (hNt : lmaxOf .complex Ntheta < Nt) (hN : Nphi ≤ N) (q : Nat → ℝ) (hq : Jacobi.GridGuess Nt 0 0 q)
    (planB planF : List Nat → (Nat → Nat → Nat → ℂ) → Nat → Nat → Nat → ℂ) (f f' rad : Nat → ℝ)
    (R : List Int → Nat → Nat → ℝ → ℝ) (kept : List Int → Nat → Nat → Prop) (A : List Nat → Int → Int → Nat → ℂ) (c : List Nat → Nat → Nat → Nat → ℂ)
    (hc : Spec.HoldsComplex sig Nphi (lmaxOf .complex Ntheta) Nr A c)
    (hB : ∀ t, Valid sig.length t → ∀ i j x, i < (sphereShape .complex Nphi (lmaxOf .complex Ntheta)).1 →
      j < (sphereShape .complex Nphi (lmaxOf .complex Ntheta)).2 →
      x < Ng → f x • planB t (c t) i j x = series R Nr (group .complex Nphi (lmaxOf .complex Ntheta) i j).2.toNat (rad x) t (c t i j))
    (hF : open Classical in ∀ t, Valid sig.length t → ∀ (u b : Nat → Nat → Nat → ℂ),
      (∀ i j x, i < (sphereShape .complex Nphi (lmaxOf .complex Ntheta)).1 → j < (sphereShape .complex Nphi (lmaxOf .complex Ntheta)).2 → x < Ng →
        u i j x = f' x • series R Nr (group .complex Nphi (lmaxOf .complex Ntheta) i j).2.toNat (rad x) t (b i j)) →
      ∀ i j n, i < (sphereShape .complex Nphi (lmaxOf .complex Ntheta)).1 → j < (sphereShape .complex Nphi (lmaxOf .complex Ntheta)).2 → n < Nr →
        planF t u i j n = if kept (regs t) (group .complex Nphi (lmaxOf .complex Ntheta) i j).2.toNat n then b i j n else 0) :
    ∃ u c', toGridComplex phi theta r sig Nphi (lmaxOf .complex Ntheta) N Nt Ng q planB f c = some u ∧
      toCoeffComplex phi theta r sig Nphi (lmaxOf .complex Ntheta) N Nt Ng q planF f' u = some c' ∧
      ∀ t, Spin.Spec.Component sig t → ∀ i j n, i < (sphereShape .complex Nphi (lmaxOf .complex Ntheta)).1 →
        j < (sphereShape .complex Nphi (lmaxOf .complex Ntheta)).2 →
        n < Nr → ∃ (m : Int) (l : Nat), sphereGroup .complex Nphi (lmaxOf .complex Ntheta) i j = some (m, (l : Int)) ∧
          open Classical in
          c' t i j n = if Regularity.Spec.Allowed l (Spec.numbers t) ∧ kept (Spec.numbers t) l n ∧ 2 * |m| < Nphi then c t i j n else 0 := by
  classical
  have hv := fun x hx => sphere_round_trip_complex (suitable h0 h1 hsig) Nphi Ntheta N Nt hA hNt hN q hq _ _
    (holds_complex hsig hA hs Nr Ng planB f rad R A c hc hB x hx)
  unfold toGridComplex toCoeffComplex
  rw [check_some hsig]
  obtain ⟨w, hw, hw'⟩ := gather_some (fun (_ : List Nat) (_ _ : Nat) => (0 : ℂ)) Ng (fun x => SphereField.toGridComplex theta sig Nphi (lmaxOf .complex Ntheta) N Nt q
    fun t i j => radiusBackward (ellMaps .complex Nphi (lmaxOf .complex Ntheta)) sig.length planB f c t i j x) (fun x hx => by
      obtain ⟨u, _, hu, _⟩ := hv x hx
      exact ⟨u, hu⟩)
  obtain ⟨v, hv1, hv2⟩ := gather_some (fun (_ : List Nat) (_ _ : Nat) => (0 : ℂ)) Ng
    (fun x => SphereField.toCoeffComplex theta sig Nphi (lmaxOf .complex Ntheta) N Nt q (w x)) (fun x hx => by
      obtain ⟨u, c', hu, hc', _⟩ := hv x hx
      rw [hw' x hx] at hu
      cases hu
      exact ⟨c', hc'⟩)
  refine ⟨w, _, hw, by rw [Option.bind_some, hv1]; rfl, fun t ht i j n hi hj hn => ?_⟩
  have htv := (component_iff hsig t).1 ht
  obtain ⟨hr1, hr2⟩ := degree_range hA i j hi hj
  obtain ⟨l, hl⟩ := Int.eq_ofNat_of_zero_le ((abs_nonneg _).trans hr1)
  refine ⟨(group .complex Nphi (lmaxOf .complex Ntheta) i j).1, l, by rw [own_group, ← hl], ?_⟩
  let b : List Nat → Nat → Nat → Nat → ℂ := fun t i j n => if 2 * |(group .complex Nphi (lmaxOf .complex Ntheta) i j).1| < (Nphi : Int) then c t i j n else 0
  have hg : ∀ t, Valid sig.length t → ∀ i j x, i < (sphereShape .complex Nphi (lmaxOf .complex Ntheta)).1 →
      j < (sphereShape .complex Nphi (lmaxOf .complex Ntheta)).2 →
      x < Ng → v x t i j = back (group .complex Nphi (lmaxOf .complex Ntheta) i j).2.toNat sig.length
        (fun t => series R Nr (group .complex Nphi (lmaxOf .complex Ntheta) i j).2.toNat (rad x) t (b t i j)) t := by
    intro t htv i j x hi hj hx
    obtain ⟨u, c', hu, hc', h⟩ := hv x hx
    rw [hw' x hx] at hu
    cases hu
    rw [hv2 x hx] at hc'
    cases hc'
    obtain ⟨m, l, e, h⟩ := h t ((component_iff hsig t).2 htv) i j hi hj
    obtain ⟨hr1, hr2⟩ := degree_range hA i j hi hj
    rw [own_group, Option.some.injEq] at e
    have el : l = (group .complex Nphi (lmaxOf .complex Ntheta) i j).2 := by rw [e]
    have em : m = (group .complex Nphi (lmaxOf .complex Ntheta) i j).1 := by rw [e]
    rw [h, radius_backward _ _ _ _ sig.length Nr Ng (fun h => degrees hA (hs h)) planB f rad R c hB t htv i j x hi hj hx]
    simp only [b]
    rw [el, em]
    by_cases h2 : 2 * |(group .complex Nphi (lmaxOf .complex Ntheta) i j).1| < (Nphi : Int)
    · simp only [if_pos h2, and_iff_left h2]
      split
      · rfl
      · rename_i hlt
        rw [back_spin _ _ _ _ htv]
        rw [← spin_regs h0 h1 hsig t htv]
        have h0l := (abs_nonneg _).trans hr1
        omega
    · rw [if_neg (fun e => h2 e.2)]
      simp only [if_neg h2]
      unfold series back
      simp
  beta_reduce
  rw [radius_forward _ _ _ _ sig.length Nr Ng (fun h => degrees hA (hs h)) planF f' rad R kept _ b hF hg t htv i j n hi hj hn]
  simp only [hl, regs_numbers htv, b, Int.toNat_natCast]
  by_cases h2 : Regularity.Spec.Allowed l (Spec.numbers t) ∧ kept (Spec.numbers t) l n
  · rw [if_pos h2]
    by_cases h3 : 2 * |(group .complex Nphi (lmaxOf .complex Ntheta) i j).1| < (Nphi : Int)
    · rw [if_pos h3, if_pos ⟨h2.1, h2.2, h3⟩]
    · rw [if_neg h3, if_neg (fun e => h3 e.2.2)]
  · rw [if_neg h2, if_neg (fun e => h2 ⟨e.1, e.2.1⟩)]

end

end Dedalus.VolumeField
