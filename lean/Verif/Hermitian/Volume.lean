import Verif.Hermitian.Sphere
import Verif.VolumeField.Props
import Verif.Modes.Read

/-! Enforcing Hermitian symmetry in balls and shells, for any radial plan. -/

namespace Dedalus.Hermitian
open Orders Orders.Spec SphereField VolumeField

/-! ## Reversed spins -/

theorem sum_neg (l : List Int) : (l.map Neg.neg).sum = -l.sum := by
  induction l with
  | nil => rfl
  | cons x l ih => simp only [List.map_cons, List.sum_cons, ih]; ring

theorem sum_set : ∀ (l : List Int) (i : Nat) (x y : Int), l[i]? = some x → (l.set i y).sum = l.sum - x + y
  | [], i, x, y, h => by simp at h
  | z :: l, 0, x, y, h => by
    simp only [List.getElem?_cons_zero, Option.some.injEq] at h
    subst h
    simp only [List.set_cons_zero, List.sum_cons]
    ring
  | z :: l, i + 1, x, y, h => by
    simp only [List.getElem?_cons_succ] at h
    simp only [List.set_cons_succ, List.sum_cons, sum_set l i x y h]
    ring

theorem k_neg (ell : Nat) (mu s : Int) : Regularity.k ell (-mu) (-s) = -Regularity.k ell mu s := by
  unfold Regularity.k
  push_cast
  rw [show (-(s : ℝ)) * (-(mu : ℝ)) = (s : ℝ) * mu by ring]
  ring

theorem intertwiner_neg (ell : Nat) : ∀ (reg spin : List Int), spin.length = reg.length → (∀ x ∈ spin, x = -1 ∨ x = 0 ∨ x = 1) →
    Regularity.intertwiner ell reg (spin.map Neg.neg) = Spec.sign (reg.count 0) * Spec.sign spin.sum * Regularity.intertwiner ell reg spin
  | [], spin, h, _ => by
    cases spin with
    | nil => simp [Regularity.intertwiner, Spec.sign]
    | cons _ _ => simp at h
  | a :: b, [], h, _ => by simp at h
  | a :: b, sigma :: tau, h, hs => by
    have hl : tau.length = b.length := by simpa using h
    have ht : ∀ x ∈ tau, x = -1 ∨ x = 0 ∨ x = 1 := fun x hx => hs x (List.mem_cons_of_mem _ hx)
    have hset : ∀ i y, (y = -1 ∨ y = 0 ∨ y = 1) → ∀ x ∈ tau.set i y, x = -1 ∨ x = 0 ∨ x = 1 := by
      intro i y hy x hx
      rcases List.mem_or_eq_of_mem_set hx with h | h
      · exact ht x h
      · rw [h]; exact hy
    have hsig := hs sigma List.mem_cons_self
    have ih := intertwiner_neg ell b
    rw [List.map_cons, Regularity.intertwiner, Regularity.intertwiner]
    have hforb : Regularity.forbiddenSpin ell (-sigma :: tau.map Neg.neg) = Regularity.forbiddenSpin ell (sigma :: tau) := by
      unfold Regularity.forbiddenSpin
      rw [List.sum_cons, List.sum_cons, sum_neg, show -sigma + -tau.sum = -(sigma + tau.sum) by ring, abs_neg]
    rw [hforb]
    split
    · rw [mul_zero]
    · simp only [List.length_map, sum_neg, List.sum_cons]
      have e1 : ∀ i ∈ Finset.range tau.length,
          ((if (tau.map Neg.neg)[i]? = some (- -sigma) then -Regularity.intertwiner ell b ((tau.map Neg.neg).set i 0) else 0) +
            (if (tau.map Neg.neg)[i]? = some 0 then Regularity.intertwiner ell b ((tau.map Neg.neg).set i (-sigma)) else 0)) =
          Spec.sign (b.count 0) * Spec.sign (sigma + tau.sum) *
            ((if tau[i]? = some (-sigma) then -Regularity.intertwiner ell b (tau.set i 0) else 0) +
              (if tau[i]? = some 0 then Regularity.intertwiner ell b (tau.set i sigma) else 0)) := by
        intro i hi
        have hi' := Finset.mem_range.1 hi
        have hget : tau[i]? = some tau[i] := List.getElem?_eq_getElem hi'
        have m1 : (tau.map Neg.neg).set i 0 = (tau.set i 0).map Neg.neg := by rw [List.map_set]; rfl
        have m2 : (tau.map Neg.neg).set i (-sigma) = (tau.set i sigma).map Neg.neg := by rw [List.map_set]
        rw [List.getElem?_map, hget, Option.map_some, m1, m2, ih _ (by rw [List.length_set]; exact hl) (hset i 0 (by simp)),
          ih _ (by rw [List.length_set]; exact hl) (hset i sigma hsig), sum_set tau i _ 0 hget, sum_set tau i _ sigma hget, mul_add]
        congr 1
        · by_cases e : tau[i] = -sigma
          · rw [if_pos (by rw [e]), if_pos (by rw [e]), e, show tau.sum - -sigma + 0 = sigma + tau.sum by ring]
            ring
          · rw [if_neg (by simpa using fun h => e (by omega)), if_neg (by simpa using e), mul_zero]
        · by_cases e : tau[i] = 0
          · rw [if_pos (by rw [e]; rfl), if_pos (by rw [e]), e, show tau.sum - 0 + sigma = sigma + tau.sum by ring]
          · rw [if_neg (by simpa using e), if_neg (by simpa using e), mul_zero]
      rw [Finset.sum_congr rfl e1, ← Finset.mul_sum, k_neg, ih tau hl ht]
      generalize (∑ i ∈ Finset.range tau.length,
            ((if tau[i]? = some (-sigma) then -Regularity.intertwiner ell b (tau.set i 0) else 0) +
              (if tau[i]? = some 0 then Regularity.intertwiner ell b (tau.set i sigma) else 0))) = S
      generalize Regularity.intertwiner ell b tau = T
      have hk : Regularity.k ell sigma tau.sum * Spec.sign tau.sum = -(Regularity.k ell sigma tau.sum * Spec.sign (sigma + tau.sum)) := by
        rw [sign_add]
        rcases hsig with e | e | e
        · subst e
          rw [show Spec.sign (-1) = -1 from rfl]
          ring
        · subst e; simp [Regularity.k]
        · subst e
          rw [show Spec.sign 1 = -1 from rfl]
          ring
      have hR : Spec.sign (b.count 0) * Spec.sign (sigma + tau.sum) * S - -Regularity.k ell sigma tau.sum * (Spec.sign (b.count 0) * Spec.sign tau.sum * T) =
          Spec.sign (b.count 0) * Spec.sign (sigma + tau.sum) * (S - Regularity.k ell sigma tau.sum * T) := by
        have := congrArg (fun y => Spec.sign (b.count 0) * y * T) hk
        beta_reduce at this
        linarith
      have hQ : (if -sigma ≠ 0 then 0 else Spec.sign (b.count 0) * Spec.sign tau.sum * T) =
          Spec.sign (b.count 0) * Spec.sign (sigma + tau.sum) * (if sigma ≠ 0 then 0 else T) := by
        by_cases e : sigma = 0
        · subst e; simp
        · rw [if_pos (by omega), if_pos e, mul_zero]
      rw [hR, hQ]
      by_cases ha : a = 0
      · subst ha
        have hne : ¬(0 : Int) = -1 := by decide
        simp only [if_neg hne, if_true]
        rw [List.count_cons_self]
        push_cast
        rw [sign_add (List.count 0 b : Int) 1, show Spec.sign 1 = -1 from rfl]
        ring
      · rw [List.count_cons_of_ne (by exact ha)]
        by_cases ha1 : a = -1
        · rw [if_pos ha1, if_pos ha1]
          ring
        · rw [if_neg ha1, if_neg ha1, if_neg ha, if_neg ha]
          ring

/-! ## Coefficients -/

section
variable {phi theta r : Spin.Coord} {sig : List Spin.Index}

theorem partner_numbers (h0 : phi.azimuthal = true) (h1 : theta.azimuthal = false) (hsig : ∀ ix ∈ sig, ix = .single (.spherical phi theta r)) (t : List Nat)
    (ht : t.length = sig.length) : VolumeField.Spec.numbers (Spec.partner phi theta sig t) = (VolumeField.Spec.numbers t).map Neg.neg := by
  induction sig generalizing t with
  | nil =>
    have : t = [] := List.length_eq_zero_iff.1 ht
    subst this
    rfl
  | cons ix sig ih =>
    cases t with
    | nil => simp at ht
    | cons x t =>
      have e := ih (fun c hc => hsig c (List.mem_cons_of_mem _ hc)) t (by simpa using ht)
      have i0 : Spin.indexOf phi ix.coords = some 0 := by
        rw [hsig ix List.mem_cons_self]
        simp [Spin.indexOf, Spin.Index.coords, Spin.Cs.coords, List.findIdx?_cons, Spin.Coord.eq]
      have i1 : Spin.indexOf theta ix.coords = some (0 + 1) := by
        rw [hsig ix List.mem_cons_self]
        simp [Spin.indexOf, Spin.Index.coords, Spin.Cs.coords, List.findIdx?_cons, Spin.Coord.eq, h0, h1]
      unfold Spec.partner VolumeField.Spec.numbers at *
      simp only [List.zipWith_cons_cons, List.map_cons, e, opposite_some ix i0 i1]
      congr 1
      by_cases e0 : x = 0
      · subst e0; rfl
      · by_cases e1 : x = 1
        · subst e1; rfl
        · simp [e0, e1]

/-- The Hermitian part of coefficients. -/
noncomputable def volumePart (A : List Nat → Int → Int → Nat → ℂ) (t : List Nat) (m l : Int) (n : Nat) : ℂ :=
  if m = 0 then (A t 0 l n + (Spec.sign ((VolumeField.Spec.numbers t).count 0) : ℝ) * (starRingEnd ℂ) (A t 0 l n)) * (1 / 2) else A t m l n

theorem numbers_unit (t : List Nat) : ∀ x ∈ VolumeField.Spec.numbers t, x = -1 ∨ x = 0 ∨ x = 1 := by
  intro x hx
  unfold VolumeField.Spec.numbers at hx
  obtain ⟨y, -, rfl⟩ := List.mem_map.1 hx
  split
  · simp
  · split <;> simp

theorem map_sum_conj (l : List (List Nat)) (F G : List Nat → ℂ) (s : ℂ) (H : List Nat → ℂ)
    (h : ∀ t ∈ l, H t = (F t + s * (starRingEnd ℂ) (G t)) * (1 / 2)) :
    (l.map H).sum = ((l.map F).sum + s * (starRingEnd ℂ) (l.map G).sum) * (1 / 2) := by
  induction l with
  | nil => simp
  | cons t l ih =>
    simp only [List.map_cons, List.sum_cons]
    rw [h t List.mem_cons_self, ih fun t ht => h t (List.mem_cons_of_mem _ ht), map_add]
    ring

theorem spin_coefficient_part (h0 : phi.azimuthal = true) (h1 : theta.azimuthal = false) (hsig : ∀ ix ∈ sig, ix = .single (.spherical phi theta r))
    (R : List Int → Nat → Nat → ℝ → ℝ) (Nr : Nat) (A : List Nat → Int → Int → Nat → ℂ) (rad : ℝ) (t : List Nat) (ht : Valid sig.length t) (m l : Int) :
    VolumeField.Spec.spinCoefficient R sig.length Nr (volumePart A) rad t m l =
      spherePart phi theta sig (VolumeField.Spec.spinCoefficient R sig.length Nr A rad) t m l := by
  unfold spherePart
  by_cases hm : m = 0
  · subst hm
    rw [if_pos rfl]
    unfold VolumeField.Spec.spinCoefficient
    refine map_sum_conj _ _ _ _ _ fun t' ht' => ?_
    have hv := (mem_indices sig.length t').1 ht'
    have hlen : (VolumeField.Spec.numbers t).length = (VolumeField.Spec.numbers t').length := by
      unfold VolumeField.Spec.numbers
      rw [List.length_map, List.length_map, ht.1, hv.1]
    rw [partner_numbers h0 h1 hsig t ht.1, intertwiner_neg l.toNat _ _ hlen (numbers_unit t), spin_regs h0 h1 hsig t ht, regs_numbers ht, map_mul,
      Complex.conj_ofReal, map_sum]
    have e : ∑ n ∈ Finset.range Nr, ((R (VolumeField.Spec.numbers t') l.toNat n rad : ℝ) : ℂ) * volumePart A t' 0 l n =
        (∑ n ∈ Finset.range Nr, ((R (VolumeField.Spec.numbers t') l.toNat n rad : ℝ) : ℂ) * A t' 0 l n +
          (Spec.sign ((VolumeField.Spec.numbers t').count 0) : ℝ) *
            ∑ n ∈ Finset.range Nr, (starRingEnd ℂ) (((R (VolumeField.Spec.numbers t') l.toNat n rad : ℝ) : ℂ) * A t' 0 l n)) * (1 / 2) := by
      rw [Finset.mul_sum, ← Finset.sum_add_distrib, Finset.sum_mul]
      refine Finset.sum_congr rfl fun n _ => ?_
      unfold volumePart
      rw [if_pos rfl, map_mul, Complex.conj_ofReal]
      ring
    rw [e]
    have hs : ((Spec.sign (VolumeField.Spec.numbers t).sum : ℝ) : ℂ) * ((Spec.sign (VolumeField.Spec.numbers t).sum : ℝ) : ℂ) = 1 := by
      rw [← Complex.ofReal_mul, sign_mul_self, Complex.ofReal_one]
    push_cast
    linear_combination (-(1 / 2 : ℂ)) * ((Spec.sign ((VolumeField.Spec.numbers t').count 0) : ℝ) : ℂ) *
      ((Regularity.intertwiner l.toNat (VolumeField.Spec.numbers t') (VolumeField.Spec.numbers t) : ℝ) : ℂ) *
      (∑ n ∈ Finset.range Nr, (starRingEnd ℂ) (((R (VolumeField.Spec.numbers t') l.toNat n rad : ℝ) : ℂ) * A t' 0 l n)) * hs
  · rw [if_neg hm]
    unfold VolumeField.Spec.spinCoefficient volumePart
    simp only [if_neg hm]

/-- The rows that stay: for order zero, those of the parity of the number of zero regularities. -/
theorem rowPart_volume {Nphi L Nr : Nat} (A : List Nat → Int → Int → Nat → ℂ) (c : List Nat → Nat → Nat → Nat → ℝ)
    (hc : VolumeField.Spec.HoldsReal sig Nphi L Nr A c) :
    VolumeField.Spec.HoldsReal sig Nphi L Nr (volumePart A) (fun t i j n =>
      if (group .real Nphi L i j).1 = 0 ∧ i % 2 ≠ (VolumeField.Spec.numbers t).count 0 % 2 then 0 else c t i j n) := by
  intro t ht i j m l n hi hj hn e
  have hcv := hc t ht i j m l n hi hj hn e
  rw [own_group, Option.some.injEq] at e
  beta_reduce
  rw [e]
  unfold volumePart
  simp only
  by_cases hm : m = 0
  · subst hm
    simp only [true_and, if_true]
    rw [hcv]
    unfold SphereField.Spec.rowPart Spec.sign
    by_cases hi2 : i % 2 = 0
    · by_cases hz : (VolumeField.Spec.numbers t).count 0 % 2 = 0
      · rw [if_neg (by omega), if_pos hi2, if_pos hi2, if_pos (by omega)]
        simp
        ring
      · rw [if_pos (by omega), if_pos hi2, if_neg (by omega)]
        simp
    · by_cases hz : (VolumeField.Spec.numbers t).count 0 % 2 = 0
      · rw [if_pos (by omega), if_neg hi2, if_pos (by omega)]
        simp
      · rw [if_neg (by omega), if_neg hi2, if_neg hi2, if_neg (by omega)]
        simp
        ring
  · rw [if_neg (fun e => hm e.1), if_neg hm, hcv]

theorem sphere_part_congr {fs : List (Option Spin.Mat)} (h : Spin.Spec.Suitable phi theta sig) (hf : Spin.factors theta sig = some fs) (L : Nat)
    (a b : List Nat → Int → Int → ℂ) (m : Int) (z : ℝ) (hab : ∀ t, Spin.Spec.Component sig t → ∀ l : Nat, a t m l = b t m l) (t : List Nat)
    (ht : Spin.Spec.Component sig t) :
    SphereField.Spec.part fs (spinWeight theta sig) L a m z t = SphereField.Spec.part fs (spinWeight theta sig) L b m z t := by
  unfold SphereField.Spec.part
  refine SphereField.backward_congr h hf _ _ (fun t ht => ?_) t ht
  unfold SphereField.Spec.spinPart
  exact Finset.sum_congr rfl fun l _ => by rw [hab t ht l]

theorem volume_project (h0 : phi.azimuthal = true) (h1 : theta.azimuthal = false) (hsig : ∀ ix ∈ sig, ix = .single (.spherical phi theta r))
    {Nphi Ntheta : Nat} (hA : Orders.Spec.Allowed .real Nphi Ntheta) (hs : 0 < sig.length → VolumeField.Spec.Separated .real Nphi (lmaxOf .real Ntheta))
    (N Nt Nr Ng : Nat) (hNt : lmaxOf .real Ntheta < Nt) (hN : Nphi ≤ N) (q : Nat → ℝ) (hq : Jacobi.GridGuess Nt 0 0 q)
    (planB planF : List Nat → (Nat → Nat → Nat → ℝ) → Nat → Nat → Nat → ℝ) (f f' rad : Nat → ℝ)
    (R : List Int → Nat → Nat → ℝ → ℝ) (kept : List Int → Nat → Nat → Prop)
    (hB : ∀ (c : List Nat → Nat → Nat → Nat → ℝ) t, Valid sig.length t → ∀ i j x, i < (sphereShape .real Nphi (lmaxOf .real Ntheta)).1 →
      j < (sphereShape .real Nphi (lmaxOf .real Ntheta)).2 →
      x < Ng → f x • planB t (c t) i j x = series R Nr (group .real Nphi (lmaxOf .real Ntheta) i j).2.toNat (rad x) t (c t i j))
    (hF : open Classical in ∀ t, Valid sig.length t → ∀ (u b : Nat → Nat → Nat → ℝ),
      (∀ i j x, i < (sphereShape .real Nphi (lmaxOf .real Ntheta)).1 → j < (sphereShape .real Nphi (lmaxOf .real Ntheta)).2 → x < Ng →
        u i j x = f' x • series R Nr (group .real Nphi (lmaxOf .real Ntheta) i j).2.toNat (rad x) t (b i j)) →
      ∀ i j n, i < (sphereShape .real Nphi (lmaxOf .real Ntheta)).1 → j < (sphereShape .real Nphi (lmaxOf .real Ntheta)).2 → n < Nr →
        planF t u i j n = if kept (regs t) (group .real Nphi (lmaxOf .real Ntheta) i j).2.toNat n then b i j n else 0)
    (hK : ∀ reg l n ρ, ¬kept reg l n → R reg l n ρ = 0) (c : List Nat → Nat → Nat → Nat → ℝ) :
    ∃ u c' u', VolumeField.toGridReal phi theta r sig Nphi (lmaxOf .real Ntheta) N Nt Ng q planB f c = some u ∧
      VolumeField.toCoeffReal phi theta r sig Nphi (lmaxOf .real Ntheta) N Nt Ng q planF f' u = some c' ∧
      (∀ t, Spin.Spec.Component sig t → ∀ i j n, i < (sphereShape .real Nphi (lmaxOf .real Ntheta)).1 → j < (sphereShape .real Nphi (lmaxOf .real Ntheta)).2 →
        n < Nr → ∃ (m : Int) (l : Nat), sphereGroup .real Nphi (lmaxOf .real Ntheta) i j = some (m, (l : Int)) ∧
          open Classical in
          c' t i j n = if Regularity.Spec.Allowed l (VolumeField.Spec.numbers t) ∧ kept (VolumeField.Spec.numbers t) l n ∧
            (m = 0 → i % 2 = (VolumeField.Spec.numbers t).count 0 % 2) then c t i j n else 0) ∧
      VolumeField.toGridReal phi theta r sig Nphi (lmaxOf .real Ntheta) N Nt Ng q planB f c' = some u' ∧
      ∀ t, Spin.Spec.Component sig t → ∀ x j y, x < Ng → y < Nt → u' x t j y = u x t j y := by
  classical
  have hsuit := suitable h0 h1 hsig (r := r)
  obtain ⟨A, hc⟩ : ∃ A, VolumeField.Spec.HoldsReal sig Nphi (lmaxOf .real Ntheta) Nr A c :=
    ⟨Modes.volumeReal Nphi (lmaxOf .real Ntheta) c, fun t _ i j m l n hi hj _ e => Modes.sphere_real_entry hA (fun p => c t p.1 p.2 n) i j m l hi hj e⟩
  have hcH := rowPart_volume A c hc
  generalize hcHd : (fun t i j n => if (group .real Nphi (lmaxOf .real Ntheta) i j).1 = 0 ∧ i % 2 ≠ (VolumeField.Spec.numbers t).count 0 % 2 then 0
    else c t i j n) = cH at hcH
  have hv := fun x hx => sphere_project hsuit Nphi Ntheta N Nt hA hNt hN q hq _ _
    (holds_real hsig hA hs Nr Ng planB f rad R A c hc (hB c) x hx)
  have hH := fun x hx => holds_real hsig hA hs Nr Ng planB f rad R (volumePart A) cH hcH (hB cH) x hx
  obtain ⟨fs, hf, -⟩ := Spin.spin_round_trip_complex phi theta sig hsuit
  have hgridU : ∃ w, VolumeField.toGridReal phi theta r sig Nphi (lmaxOf .real Ntheta) N Nt Ng q planB f c = some w ∧ ∀ x, x < Ng →
      SphereField.toGridReal phi theta sig Nphi (lmaxOf .real Ntheta) N Nt q
        (fun t i j => radiusBackward (ellMaps .real Nphi (lmaxOf .real Ntheta)) sig.length planB f c t i j x) = some (w x) := by
    unfold VolumeField.toGridReal
    rw [check_some hsig]
    exact gather_some (fun (_ : List Nat) (_ _ : Nat) => (0 : ℝ)) Ng _ (fun x hx => by
      obtain ⟨_, u, _, _, hu, _⟩ := hv x hx
      exact ⟨u, hu⟩)
  obtain ⟨w, hw, hw'⟩ := hgridU
  obtain ⟨v, hv1, hv2⟩ := gather_some (fun (_ : List Nat) (_ _ : Nat) => (0 : ℝ)) Ng
    (fun x => SphereField.toCoeffReal phi theta sig Nphi (lmaxOf .real Ntheta) N Nt q (w x)) (fun x hx => by
      obtain ⟨_, u, c', _, hu, hc', _⟩ := hv x hx
      rw [hw' x hx] at hu
      cases hu
      exact ⟨c', hc'⟩)
  have hg : ∀ t, Valid sig.length t → ∀ i j x, i < (sphereShape .real Nphi (lmaxOf .real Ntheta)).1 → j < (sphereShape .real Nphi (lmaxOf .real Ntheta)).2 →
      x < Ng → v x t i j = back (group .real Nphi (lmaxOf .real Ntheta) i j).2.toNat sig.length
        (fun t => series R Nr (group .real Nphi (lmaxOf .real Ntheta) i j).2.toNat (rad x) t (cH t i j)) t := by
    intro t htv i j x hi hj hx
    have ht := (component_iff hsig t).2 htv
    obtain ⟨_, u, c', _, hu, hc', h, -⟩ := hv x hx
    rw [hw' x hx] at hu
    cases hu
    rw [hv2 x hx] at hc'
    cases hc'
    obtain ⟨m, l, e, h⟩ := h t ht i j hi hj
    have e2 := hH x hx t ht i j m l hi hj e
    beta_reduce at e2
    obtain ⟨hr1, hr2⟩ := degree_range hA i j hi hj
    rw [spin_coefficient_part h0 h1 hsig R Nr A _ t htv m l,
      radius_backward _ _ _ _ sig.length Nr Ng (fun h => degrees hA (hs h)) planB f rad R cH (hB cH) t htv i j x hi hj hx] at e2
    rw [own_group, Option.some.injEq] at e
    have el : l = (group .real Nphi (lmaxOf .real Ntheta) i j).2 := by rw [e]
    rw [h]
    split
    · exact e2.symm
    · rename_i hlt
      rw [back_spin _ _ _ _ htv]
      rw [← spin_regs h0 h1 hsig t htv]
      have h0l := (abs_nonneg _).trans hr1
      rw [el] at hlt
      omega
  have hout : ∀ t, Spin.Spec.Component sig t → ∀ i j n, i < (sphereShape .real Nphi (lmaxOf .real Ntheta)).1 →
      j < (sphereShape .real Nphi (lmaxOf .real Ntheta)).2 → n < Nr →
      radiusForward (ellMaps .real Nphi (lmaxOf .real Ntheta)) sig.length planF f' (fun t i j x => v x t i j) t i j n =
        if Regularity.Spec.Allowed (group .real Nphi (lmaxOf .real Ntheta) i j).2.toNat (VolumeField.Spec.numbers t) ∧
          kept (VolumeField.Spec.numbers t) (group .real Nphi (lmaxOf .real Ntheta) i j).2.toNat n then cH t i j n else 0 := by
    intro t ht i j n hi hj hn
    have htv := (component_iff hsig t).1 ht
    rw [radius_forward _ _ _ _ sig.length Nr Ng (fun h => degrees hA (hs h)) planF f' rad R kept _ cH hF hg t htv i j n hi hj hn, regs_numbers htv]
  have hcK : VolumeField.Spec.HoldsReal sig Nphi (lmaxOf .real Ntheta) Nr
      (fun t m l n => if Regularity.Spec.Allowed l.toNat (VolumeField.Spec.numbers t) ∧ kept (VolumeField.Spec.numbers t) l.toNat n then volumePart A t m l n else 0)
      (radiusForward (ellMaps .real Nphi (lmaxOf .real Ntheta)) sig.length planF f' fun t i j x => v x t i j) := by
    intro t ht i j m l n hi hj hn e
    rw [hout t ht i j n hi hj hn]
    have e' := e
    rw [own_group, Option.some.injEq] at e'
    rw [e']
    simp only
    split
    · exact hcH t ht i j m l n hi hj hn e
    · unfold SphereField.Spec.rowPart
      split <;> rfl
  obtain ⟨fs2, u2, hf2, hu2, hval2⟩ := values_real h0 h1 hsig hA hs N Nt Nr Ng hNt hN q hq planB f rad R _ _ hcK (hB _)
  rw [hf] at hf2
  cases hf2
  refine ⟨w, _, u2, hw, ?_, fun t ht i j n hi hj hn => ?_, hu2, fun t ht x j y hx hy => ?_⟩
  · unfold VolumeField.toCoeffReal
    rw [check_some hsig, Option.bind_some, hv1]
    rfl
  · obtain ⟨hr1, hr2⟩ := degree_range hA i j hi hj
    obtain ⟨l, hl⟩ := Int.eq_ofNat_of_zero_le ((abs_nonneg _).trans hr1)
    refine ⟨(group .real Nphi (lmaxOf .real Ntheta) i j).1, l, by rw [own_group, ← hl], ?_⟩
    rw [hout t ht i j n hi hj hn, hl, Int.toNat_natCast, ← hcHd]
    beta_reduce
    by_cases hk : Regularity.Spec.Allowed l (VolumeField.Spec.numbers t) ∧ kept (VolumeField.Spec.numbers t) l n
    · rw [if_pos hk]
      by_cases hz : (group .real Nphi (lmaxOf .real Ntheta) i j).1 = 0 ∧ i % 2 ≠ (VolumeField.Spec.numbers t).count 0 % 2
      · rw [if_pos hz, if_neg (fun e => hz.2 (e.2.2 hz.1))]
      · rw [if_neg hz, if_pos ⟨hk.1, hk.2, fun e => by by_contra e'; exact hz ⟨e, e'⟩⟩]
    · rw [if_neg hk, if_neg (fun e => hk ⟨e.1, e.2.1⟩)]
  · obtain ⟨fs3, u3, c3, hf3, hu3, -, -, h3⟩ := hv x hx
    rw [hf] at hf3
    cases hf3
    rw [hw' x hx] at hu3
    cases hu3
    rw [hval2 t ht x j y hx hy, h3 t ht j y hy]
    unfold SphereField.Spec.realValue
    refine Finset.sum_congr rfl fun m _ => ?_
    rw [sphere_part_congr hsuit hf (lmaxOf .real Ntheta) _ (spherePart phi theta sig (VolumeField.Spec.spinCoefficient R sig.length Nr A (rad x))) m _
      (fun t ht l => ?_) t ht]
    have htv := (component_iff hsig t).1 ht
    rw [← spin_coefficient_part h0 h1 hsig R Nr A _ t htv]
    refine Modes.spin_coefficient_congr R sig.length Nr _ _ _ m l t htv fun t' ht' ha n _ hR => ?_
    rw [Int.toNat_natCast, if_pos]
    rw [← regs_numbers ht'] at hR ⊢
    refine ⟨ha, ?_⟩
    by_contra hk
    exact hR (hK _ _ _ _ hk)

end

end Dedalus.Hermitian
