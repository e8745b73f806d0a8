import Verif.Modes.Lemmas

/-! Lemmas for C103: coefficients that agree at the valid modes describe the same fields. -/

namespace Dedalus.Modes
open Orders SphereField

/-! ## Sphere -/

/-- the coefficients of an array on the sphere -/
noncomputable def sphereReal (Nphi L : Nat) (c : List Nat → Nat → Nat → ℝ) (t : List Nat) (m l : Int) : ℂ :=
  decodeReal (Slot .real Nphi L) Prod.fst (fun p => group .real Nphi L p.1 p.2) (fun p => c t p.1 p.2) (m, l)

noncomputable def sphereComplex (Nphi L : Nat) (c : List Nat → Nat → Nat → ℂ) (t : List Nat) (m l : Int) : ℂ :=
  decode (Slot .complex Nphi L) (fun p => group .complex Nphi L p.1 p.2) (fun p => c t p.1 p.2) (m, l)

theorem sphere_real_entry {Nphi Ntheta : Nat} (hA : Spec.Allowed .real Nphi Ntheta) (c : Nat × Nat → ℝ) (i j : Nat) (m l : Int)
    (hi : i < (sphereShape .real Nphi (lmaxOf .real Ntheta)).1) (hj : j < (sphereShape .real Nphi (lmaxOf .real Ntheta)).2)
    (hg : sphereGroup .real Nphi (lmaxOf .real Ntheta) i j = some (m, l)) :
    c (i, j) = SphereField.Spec.rowPart (decodeReal (Slot .real Nphi (lmaxOf .real Ntheta)) Prod.fst
      (fun p => group .real Nphi (lmaxOf .real Ntheta) p.1 p.2) c (m, l)) i := by
  have h := decodeReal_eq (row := Prod.fst) (name := fun p : Nat × Nat => group .real Nphi (lmaxOf .real Ntheta) p.1 p.2)
    (fun p p' hp hp' e e' => (slot_real hA).2 p p' hp hp' e e') c (i, j) ⟨hi, hj⟩
  simp only [group_eq hg] at h
  exact h.symm

theorem sphere_complex_entry {Nphi Ntheta : Nat} (hA : Spec.Allowed .complex Nphi Ntheta) (c : Nat × Nat → ℂ) (i j : Nat) (m l : Int)
    (hi : i < (sphereShape .complex Nphi (lmaxOf .complex Ntheta)).1) (hj : j < (sphereShape .complex Nphi (lmaxOf .complex Ntheta)).2)
    (hg : sphereGroup .complex Nphi (lmaxOf .complex Ntheta) i j = some (m, l)) :
    c (i, j) = decode (Slot .complex Nphi (lmaxOf .complex Ntheta)) (fun p => group .complex Nphi (lmaxOf .complex Ntheta) p.1 p.2) c (m, l) := by
  have h := decode_eq (name := fun p : Nat × Nat => group .complex Nphi (lmaxOf .complex Ntheta) p.1 p.2)
    (fun p p' hp hp' e => (slot_complex hA).2 p p' hp hp' e) c (i, j) ⟨hi, hj⟩
  simp only [group_eq hg] at h
  exact h.symm

theorem sphere_valid_real {Nphi L : Nat} {coord1 : Spin.Coord} {sig : List Spin.Index} {t : List Nat} {i j : Nat} {m l : Nat}
    (hg : group .real Nphi L i j = ((m : Int), (l : Int))) (h1 : m ≤ l) (h2 : (spinWeight coord1 sig t).natAbs ≤ l)
    (h3 : l = 0 → i % 2 = 1 → 1 < sig.length) : sphere .real Nphi L coord1 sig t i j = true := by
  unfold sphere dropSine
  simp only [hg]
  have e1 : ¬|(m : Int)| > (l : Int) := by rw [Int.abs_eq_natAbs]; omega
  have e2 : ¬max |(m : Int)| |spinWeight coord1 sig t| > (l : Int) := by rw [Int.abs_eq_natAbs, Int.abs_eq_natAbs]; omega
  rw [if_neg e1, if_neg e2]
  by_cases hz : l = 0 ∧ i % 2 = 1
  · have := h3 hz.1 hz.2
    rw [if_neg (by omega), if_neg (by omega), if_neg (by omega)]
  · have : (((l : Int) == 0) && (i % 2 == 1)) = false := by
      simp only [Bool.and_eq_false_iff, beq_eq_false_iff_ne]
      by_cases h0 : l = 0
      · exact Or.inr fun e => hz ⟨h0, e⟩
      · exact Or.inl (by omega)
    simp [this]

theorem sphere_valid_complex {Nphi L : Nat} {coord1 : Spin.Coord} {sig : List Spin.Index} {t : List Nat} {i j : Nat} {m : Int} {l : Nat}
    (hg : group .complex Nphi L i j = (m, (l : Int))) (h1 : m.natAbs ≤ l) (h2 : (spinWeight coord1 sig t).natAbs ≤ l) :
    sphere .complex Nphi L coord1 sig t i j = true := by
  unfold sphere dropSine
  simp only [hg]
  have e1 : ¬|m| > (l : Int) := by rw [Int.abs_eq_natAbs]; omega
  have e2 : ¬max |m| |spinWeight coord1 sig t| > (l : Int) := by rw [Int.abs_eq_natAbs, Int.abs_eq_natAbs]; omega
  rw [if_neg e1, if_neg e2, ite_self]

/-! ## Disk and annulus -/

noncomputable def polarReal (Nphi : Nat) (c : List Nat → Nat → Nat → ℝ) (t : List Nat) (m : Int) (n : Nat) : ℂ :=
  decodeReal (fun i => i < polarRows .real Nphi) id (wave .real Nphi) (fun i => c t i n) m

noncomputable def polarComplex (Nphi : Nat) (c : List Nat → Nat → Nat → ℂ) (t : List Nat) (m : Int) (n : Nat) : ℂ :=
  decode (fun i => i < Nphi) (wave .complex Nphi) (fun i => c t i n) m

theorem polar_holds_real {Nphi : Nat} (hA : PolarField.Spec.Accepted .real Nphi) (sig : List Spin.Index) (Nr : Nat) (c : List Nat → Nat → Nat → ℝ) :
    PolarField.Spec.HoldsReal sig Nphi Nr (polarReal Nphi c) c := by
  intro t _ i n hi _
  exact (decodeReal_eq (row := id) (fun x y hx hy e e' => rows_real hA x y hx hy e e') (fun i => c t i n) i hi).symm

theorem polar_holds_complex {Nphi : Nat} (hA : PolarField.Spec.Accepted .complex Nphi) (sig : List Spin.Index) (Nr : Nat) (c : List Nat → Nat → Nat → ℂ) :
    PolarField.Spec.HoldsComplex sig Nphi Nr (polarComplex Nphi c) c := by
  intro t _ i n hi _
  exact (decode_eq (fun x y hx hy e => rows_complex hA x y hx hy e) (fun i => c t i n) i hi).symm

section
variable {coord0 coord1 : Spin.Coord} {sig : List Spin.Index} {fs : List (Option Spin.Mat)}

theorem polar_real_ignored (disk : Bool) (h : Spin.Spec.Suitable coord0 coord1 sig) (hf : Spin.factors coord1 sig = some fs) {Nphi : Nat}
    (R : Int → Int → Nat → ℝ → ℝ) (hR : ∀ (s m : Int) (n : Nat) (r : ℝ), (n : Int) < nmin disk m → R s m n r = 0) (Nr M : Nat) (c c' : List Nat → Nat → Nat → ℝ)
    (hcc : ∀ t, Spin.Spec.Component sig t → ∀ i n, i < polarRows .real Nphi → n < Nr → polar disk .real Nphi sig.length i n = true → c t i n = c' t i n)
    (r φ : ℝ) (t : List Nat) (ht : Spin.Spec.Component sig t) :
    PolarField.Spec.realValue R fs (spinWeight coord1 sig) Nr M (polarReal Nphi c) r φ t =
      PolarField.Spec.realValue R fs (spinWeight coord1 sig) Nr M (polarReal Nphi c') r φ t := by
  refine polar_value_congr h hf R Nr M _ _ r φ (fun t ht m n _ hn hRn => ?_) t ht
  have hn' : nmin disk m ≤ (n : Int) := by
    by_contra hlt
    exact hRn (hR _ _ _ _ (by omega))
  by_cases hd : m = 0 ∧ sig = []
  · refine Or.inr ⟨hd.2, hd.1, decodeReal_re fun i hi e e' => ?_⟩
    refine hcc t ht i n hi hn ?_
    simp only [id] at e'
    unfold polar
    simp only [e, hn', e']
    simp
  · refine Or.inl (decodeReal_congr fun i hi e => ?_)
    refine hcc t ht i n hi hn ?_
    unfold polar
    simp only [e, hn', decide_true]
    split
    · next hz =>
      rw [if_neg]
      rintro ⟨e1, _⟩
      exact hd ⟨by omega, List.length_eq_zero_iff.1 hz⟩
    · rfl

theorem polar_complex_ignored (disk : Bool) (h : Spin.Spec.Suitable coord0 coord1 sig) (hf : Spin.factors coord1 sig = some fs) {Nphi : Nat}
    (hA : PolarField.Spec.Accepted .complex Nphi)
    (R : Int → Int → Nat → ℝ → ℝ) (hR : ∀ (s m : Int) (n : Nat) (r : ℝ), (n : Int) < nmin disk m → R s m n r = 0) (Nr M : Nat) (c c' : List Nat → Nat → Nat → ℂ)
    (hcc : ∀ t, Spin.Spec.Component sig t → ∀ i n, i < Nphi → n < Nr → polar disk .complex Nphi sig.length i n = true → c t i n = c' t i n)
    (r φ : ℝ) (t : List Nat) (ht : Spin.Spec.Component sig t) :
    PolarField.Spec.complexValue R fs (spinWeight coord1 sig) Nr M (polarComplex Nphi c) r φ t =
      PolarField.Spec.complexValue R fs (spinWeight coord1 sig) Nr M (polarComplex Nphi c') r φ t := by
  refine polar_value_congr_complex h hf R Nr M _ _ r φ (fun t ht m n _ hn hRn => ?_) t ht
  have hn' : nmin disk m ≤ (n : Int) := by
    by_contra hlt
    exact hRn (hR _ _ _ _ (by omega))
  refine decode_congr fun i hi e => hcc t ht i n hi hn ?_
  unfold polar
  simp only [e, hn', decide_true]
  split
  · rw [if_neg]
    rintro ⟨e1, e2⟩
    have := zero_row hA i hi (e.trans e1)
    omega
  · rfl
end

/-! ## Ball and shell -/

noncomputable def volumeReal (Nphi L : Nat) (c : List Nat → Nat → Nat → Nat → ℝ) (t : List Nat) (m l : Int) (n : Nat) : ℂ :=
  decodeReal (Slot .real Nphi L) Prod.fst (fun p => group .real Nphi L p.1 p.2) (fun p => c t p.1 p.2 n) (m, l)

noncomputable def volumeComplex (Nphi L : Nat) (c : List Nat → Nat → Nat → Nat → ℂ) (t : List Nat) (m l : Int) (n : Nat) : ℂ :=
  decode (Slot .complex Nphi L) (fun p => group .complex Nphi L p.1 p.2) (fun p => c t p.1 p.2 n) (m, l)

theorem spin_coefficient_congr (R : List Int → Nat → Nat → ℝ → ℝ) (rank Nr : Nat) (A A' : List Nat → Int → Int → Nat → ℂ) (r : ℝ) (m : Int) (l : Nat)
    (t : List Nat) (ht : VolumeField.Valid rank t)
    (h : ∀ t', VolumeField.Valid rank t' → Regularity.Spec.Allowed l (VolumeField.regs t') → ∀ n, n < Nr → R (VolumeField.Spec.numbers t') l n r ≠ 0 →
      A t' m l n = A' t' m l n) :
    VolumeField.Spec.spinCoefficient R rank Nr A r t m l = VolumeField.Spec.spinCoefficient R rank Nr A' r t m l := by
  unfold VolumeField.Spec.spinCoefficient
  congr 1
  refine List.map_congr_left fun t' ht' => ?_
  have hv := (VolumeField.mem_indices rank t').1 ht'
  by_cases ha : Regularity.Spec.Allowed l (VolumeField.regs t')
  · congr 1
    refine Finset.sum_congr rfl fun n hn => ?_
    by_cases hR : R (VolumeField.Spec.numbers t') ((l : Int)).toNat n r = 0
    · rw [hR, Complex.ofReal_zero, zero_mul, zero_mul]
    · rw [h t' hv ha n (Finset.mem_range.1 hn) hR]
  · have h0 := intertwiner_forbidden l rank t' t hv ht ha
    rw [VolumeField.regs_numbers hv, VolumeField.regs_numbers ht] at h0
    rw [Int.toNat_natCast, h0, Complex.ofReal_zero, zero_mul, zero_mul]

theorem spin_coefficient_re (R : List Int → Nat → Nat → ℝ → ℝ) (rank Nr : Nat) (A A' : List Nat → Int → Int → Nat → ℂ) (r : ℝ) (m : Int) (l : Nat)
    (t : List Nat) (ht : VolumeField.Valid rank t)
    (h : ∀ t', VolumeField.Valid rank t' → Regularity.Spec.Allowed l (VolumeField.regs t') → ∀ n, n < Nr → R (VolumeField.Spec.numbers t') l n r ≠ 0 →
      (A t' m l n).re = (A' t' m l n).re) :
    (VolumeField.Spec.spinCoefficient R rank Nr A r t m l).re = (VolumeField.Spec.spinCoefficient R rank Nr A' r t m l).re := by
  have hre : ∀ B : List Nat → Int → Int → Nat → ℂ, (VolumeField.Spec.spinCoefficient R rank Nr B r t m l).re =
      (VolumeField.Spec.spinCoefficient R rank Nr (fun t m l n => ((B t m l n).re : ℂ)) r t m l).re := by
    intro B
    unfold VolumeField.Spec.spinCoefficient
    induction VolumeField.indices rank with
    | nil => rfl
    | cons t' rest ih =>
      simp only [List.map_cons, List.sum_cons, Complex.add_re]
      rw [ih]
      congr 1
      rw [Complex.re_ofReal_mul, Complex.re_ofReal_mul, Complex.re_sum, Complex.re_sum]
      congr 1
      refine Finset.sum_congr rfl fun n _ => ?_
      rw [Complex.re_ofReal_mul, Complex.re_ofReal_mul, Complex.ofReal_re]
  rw [hre A, hre A']
  refine congrArg Complex.re (spin_coefficient_congr R rank Nr _ _ r m l t ht fun t' hv ha n hn hR => ?_)
  rw [h t' hv ha n hn hR]

theorem volume_valid_real {ball : Bool} {Nphi L rank : Nat} {t : List Nat} (ht : VolumeField.Valid rank t) {i j n : Nat} {m : Int} {l : Nat}
    (hg : group .real Nphi L i j = (m, (l : Int))) (h1 : Regularity.Spec.Allowed l (VolumeField.regs t)) (h2 : radialMin ball l ≤ n)
    (h3 : l = 0 → i % 2 = 1 → 1 < rank) : volume ball .real Nphi L t i j n = true := by
  unfold volume dropSine
  simp only [hg]
  have e1 : decide ((n : Int) < radialMin ball l) = false := by simp; omega
  simp only [e1, (allowedLoop_iff l rank t ht).2 h1, ite_self, ht.1]
  by_cases hz : l = 0 ∧ i % 2 = 1
  · have := h3 hz.1 hz.2
    rw [if_neg (by omega), if_neg (by omega)]
  · have : (((l : Int) == 0) && !false && (i % 2 == 1)) = false := by
      simp only [Bool.not_false, Bool.and_true, Bool.and_eq_false_iff, beq_eq_false_iff_ne]
      by_cases h0 : l = 0
      · exact Or.inr fun e => hz ⟨h0, e⟩
      · exact Or.inl (by omega)
    simp only [this, Bool.false_eq_true, if_false, ite_self]

theorem volume_valid_complex {ball : Bool} {Nphi L rank : Nat} {t : List Nat} (ht : VolumeField.Valid rank t) {i j n : Nat} {m : Int} {l : Nat}
    (hg : group .complex Nphi L i j = (m, (l : Int))) (h1 : Regularity.Spec.Allowed l (VolumeField.regs t)) (h2 : radialMin ball l ≤ n) :
    volume ball .complex Nphi L t i j n = true := by
  unfold volume dropSine
  simp only [hg]
  have e1 : decide ((n : Int) < radialMin ball l) = false := by simp; omega
  simp only [e1, (allowedLoop_iff l rank t ht).2 h1, ite_self]

section
variable {phi theta r : Spin.Coord} {sig : List Spin.Index} {fs : List (Option Spin.Mat)}

theorem volume_real_ignored (ball : Bool) (h0 : phi.azimuthal = true) (h1 : theta.azimuthal = false)
    (hsig : ∀ ix ∈ sig, ix = .single (.spherical phi theta r)) (hf : Spin.factors theta sig = some fs) {Nphi L Nr : Nat}
    (R : List Int → Nat → Nat → ℝ → ℝ) (hR : ∀ (reg : List Int) (l n : Nat) (r : ℝ), (n : Int) < radialMin ball l → R reg l n r = 0) (M : Nat) (c c' : List Nat → Nat → Nat → Nat → ℝ)
    (hcc : ∀ t, Spin.Spec.Component sig t → ∀ i j n, i < (sphereShape .real Nphi L).1 → j < (sphereShape .real Nphi L).2 → n < Nr →
      radialMin ball (group .real Nphi L i j).2 ≤ n → volume ball .real Nphi L t i j n = true → c t i j n = c' t i j n)
    (rho z φ : ℝ) (t : List Nat) (ht : Spin.Spec.Component sig t) :
    SphereField.Spec.realValue fs (spinWeight theta sig) L M (VolumeField.Spec.spinCoefficient R sig.length Nr (volumeReal Nphi L c) rho) z φ t =
      SphereField.Spec.realValue fs (spinWeight theta sig) L M (VolumeField.Spec.spinCoefficient R sig.length Nr (volumeReal Nphi L c') rho) z φ t := by
  have hsu := VolumeField.suitable (sig := sig) h0 h1 hsig
  refine sphere_value_congr hsu hf L M _ _ (fun t ht m l _ hml hsl _ => ?_) z φ t ht
  have hv := (VolumeField.component_iff hsig t).1 ht
  have hlow : ∀ {reg : List Int} {n : Nat}, R reg l n rho ≠ 0 → radialMin ball l ≤ (n : Int) := by
    intro reg n hRn
    by_contra hlt
    exact hRn (hR _ _ _ _ (by omega))
  by_cases hd : l = 0 ∧ sig.length ≤ 1
  · refine Or.inr ⟨hd.2, by omega, hd.1, spin_coefficient_re R sig.length Nr _ _ rho m l t hv fun t' hv' ha n hn hRn => ?_⟩
    refine decodeReal_re fun p hp e e' => ?_
    refine hcc t' ((VolumeField.component_iff hsig t').2 hv') p.1 p.2 n hp.1 hp.2 hn (by rw [e]; exact hlow hRn) ?_
    exact volume_valid_real hv' e ha (hlow hRn) (fun _ h => by omega)
  · refine Or.inl (spin_coefficient_congr R sig.length Nr _ _ rho m l t hv fun t' hv' ha n hn hRn => ?_)
    refine decodeReal_congr fun p hp e => ?_
    refine hcc t' ((VolumeField.component_iff hsig t').2 hv') p.1 p.2 n hp.1 hp.2 hn (by rw [e]; exact hlow hRn) ?_
    exact volume_valid_real hv' e ha (hlow hRn) (fun h _ => by omega)

theorem volume_complex_ignored (ball : Bool) (h0 : phi.azimuthal = true) (h1 : theta.azimuthal = false)
    (hsig : ∀ ix ∈ sig, ix = .single (.spherical phi theta r)) (hf : Spin.factors theta sig = some fs) {Nphi L Nr : Nat}
    (R : List Int → Nat → Nat → ℝ → ℝ) (hR : ∀ (reg : List Int) (l n : Nat) (r : ℝ), (n : Int) < radialMin ball l → R reg l n r = 0) (M : Nat) (c c' : List Nat → Nat → Nat → Nat → ℂ)
    (hcc : ∀ t, Spin.Spec.Component sig t → ∀ i j n, i < (sphereShape .complex Nphi L).1 → j < (sphereShape .complex Nphi L).2 → n < Nr →
      radialMin ball (group .complex Nphi L i j).2 ≤ n → volume ball .complex Nphi L t i j n = true → c t i j n = c' t i j n)
    (rho z φ : ℝ) (t : List Nat) (ht : Spin.Spec.Component sig t) :
    SphereField.Spec.complexValue fs (spinWeight theta sig) L M (VolumeField.Spec.spinCoefficient R sig.length Nr (volumeComplex Nphi L c) rho) z φ t =
      SphereField.Spec.complexValue fs (spinWeight theta sig) L M (VolumeField.Spec.spinCoefficient R sig.length Nr (volumeComplex Nphi L c') rho) z φ t := by
  have hsu := VolumeField.suitable (sig := sig) h0 h1 hsig
  refine sphere_value_congr_complex hsu hf L M _ _ (fun t ht m l _ hml hsl _ => ?_) z φ t ht
  have hv := (VolumeField.component_iff hsig t).1 ht
  refine spin_coefficient_congr R sig.length Nr _ _ rho m l t hv fun t' hv' ha n hn hRn => ?_
  have hlow : radialMin ball l ≤ (n : Int) := by
    by_contra hlt
    exact hRn (hR _ _ _ _ (by omega))
  refine decode_congr fun p hp e => ?_
  exact hcc t' ((VolumeField.component_iff hsig t').2 hv') p.1 p.2 n hp.1 hp.2 hn (by rw [e]; exact hlow) (volume_valid_complex hv' e ha hlow)

end

end Dedalus.Modes
