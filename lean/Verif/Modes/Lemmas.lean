import Verif.Modes.Model
import Verif.SphereField.Props
import Verif.PolarField.Props
import Verif.VolumeField.Props

/-! Lemmas for C103. -/

namespace Dedalus.Modes
open Orders SphereField

/-! ## Reading coefficients by name -/

section
variable {α κ V : Type} [Zero V]

open Classical in
/-- the entry with the name `k`, or zero -/
noncomputable def decode (D : α → Prop) (name : α → κ) (c : α → V) (k : κ) : V := if h : ∃ x, D x ∧ name x = k then c h.choose else 0

theorem decode_eq {D : α → Prop} {name : α → κ} (hinj : ∀ x y, D x → D y → name x = name y → x = y) (c : α → V) (x : α) (hx : D x) :
    decode D name c (name x) = c x := by
  have h : ∃ y, D y ∧ name y = name x := ⟨x, hx, rfl⟩
  unfold decode
  rw [dif_pos h, hinj _ _ h.choose_spec.1 hx h.choose_spec.2]

theorem decode_congr {D : α → Prop} {name : α → κ} {c c' : α → V} {k : κ} (h : ∀ x, D x → name x = k → c x = c' x) : decode D name c k = decode D name c' k := by
  unfold decode
  split
  · next e => exact h _ e.choose_spec.1 e.choose_spec.2
  · rfl
end

/-- two parts -/
noncomputable def decodeReal {α κ : Type} (D : α → Prop) (row : α → Nat) (name : α → κ) (c : α → ℝ) (k : κ) : ℂ :=
  ⟨decode D (fun x => (name x, row x % 2)) c (k, 0), decode D (fun x => (name x, row x % 2)) c (k, 1)⟩

theorem decodeReal_eq {α κ : Type} {D : α → Prop} {row : α → Nat} {name : α → κ}
    (hinj : ∀ x y, D x → D y → name x = name y → row x % 2 = row y % 2 → x = y) (c : α → ℝ) (x : α) (hx : D x) :
    SphereField.Spec.rowPart (decodeReal D row name c (name x)) (row x) = c x := by
  have h := decode_eq (name := fun x => (name x, row x % 2)) (fun x y hx hy e => hinj x y hx hy (congrArg Prod.fst e) (congrArg Prod.snd e)) c x hx
  unfold SphereField.Spec.rowPart decodeReal
  have : row x % 2 = 0 ∨ row x % 2 = 1 := by omega
  rcases this with e | e
  · rw [if_pos e]; rw [e] at h; exact h
  · rw [if_neg (by omega)]; rw [e] at h; exact h

theorem decodeReal_re {α κ : Type} {D : α → Prop} {row : α → Nat} {name : α → κ} {c c' : α → ℝ} {k : κ}
    (h : ∀ x, D x → name x = k → row x % 2 = 0 → c x = c' x) : (decodeReal D row name c k).re = (decodeReal D row name c' k).re :=
  decode_congr fun x hx e => h x hx (congrArg Prod.fst e) (congrArg Prod.snd e)

theorem decodeReal_congr {α κ : Type} {D : α → Prop} {row : α → Nat} {name : α → κ} {c c' : α → ℝ} {k : κ}
    (h : ∀ x, D x → name x = k → c x = c' x) : decodeReal D row name c k = decodeReal D row name c' k :=
  Complex.ext (decodeReal_re fun x hx e _ => h x hx e) (decode_congr fun x hx e => h x hx (congrArg Prod.fst e))

/-! ## Recombination -/

section
variable {coord0 coord1 : Spin.Coord} {sig : List Spin.Index} {fs : List (Option Spin.Mat)}

/-- Spin components of weight zero of vectors are not combined with others. -/
theorem backward_re (h : Spin.Spec.Suitable coord0 coord1 sig) (hf : Spin.factors coord1 sig = some fs) (hr : sig.length ≤ 1) (u v : Spin.Comps)
    (h1 : ∀ t, Spin.Spec.Component sig t → spinWeight coord1 sig t ≠ 0 → u t = v t)
    (h2 : ∀ t, Spin.Spec.Component sig t → (u t).re = (v t).re) (t : List Nat) (ht : Spin.Spec.Component sig t) :
    (Spin.backwardComplex 0 fs u t).re = (Spin.backwardComplex 0 fs v t).re := by
  match sig, hr with
  | [], _ => cases hf; exact h2 t ht
  | [ix], _ =>
    cases ht with
    | cons hx ht =>
      next x t =>
      cases ht
      rcases h.2.2 ix (by simp) with hn | hc
      · rw [Spin.factors, hn] at hf
        cases hf
        exact h2 [x] (.cons hx .nil)
      · obtain ⟨s, A, i1, i2, i3, hA, hag, v1, v2⟩ := Spin.carries_index h.1 h.2.1 hc
        rw [Spin.factors, i2] at hf
        simp only [hA] at hf
        cases hf
        have hd : Spin.Agree ix.dim A.dag (Spin.pairMat s ix.dim).dag := by
          obtain ⟨g1, g2, g3, g4, g5⟩ := hag
          exact ⟨g2, g1, g4, g3, fun i hi j hj => by simp only [Spin.Mat.dag, g5 j hj i hi]⟩
        have w : ∀ y, spinWeight coord1 [ix] [y] = if y = s then -1 else if y = s + 1 then 1 else 0 := by
          intro y
          unfold spinWeight indexSpin
          rw [i2]
          simp only [spinWeight, add_zero, Nat.add_right_cancel_iff]
        have e0 : u [s] = v [s] := h1 [s] (.cons (by omega) .nil) (by rw [w]; simp)
        have e1 : u [s + 1] = v [s + 1] := h1 [s + 1] (.cons (by omega) .nil) (by rw [w]; simp)
        simp only [Spin.backwardComplex]
        rw [Spin.apply_agree hd u (i := 0) (x := x) (t := [x]) rfl hx, Spin.apply_agree hd v (i := 0) (x := x) (t := [x]) rfl hx,
          Spin.apply_pair_dag i3 u rfl hx, Spin.apply_pair_dag i3 v rfl hx]
        simp only [List.set_cons_zero]
        rw [e0, e1]
        split
        · rfl
        · split
          · rfl
          · exact h2 [x] (.cons hx .nil)

/-! ## Sphere -/

/-- Which coefficients a real field on the sphere depends on. -/
theorem sphere_value_congr (h : Spin.Spec.Suitable coord0 coord1 sig) (hf : Spin.factors coord1 sig = some fs) (L M : Nat) (a a' : List Nat → Int → Int → ℂ)
    (haa : ∀ t, Spin.Spec.Component sig t → ∀ m l : Nat, m ≤ M → m ≤ l → (spinWeight coord1 sig t).natAbs ≤ l → l ≤ L →
      a t m l = a' t m l ∨ (sig.length ≤ 1 ∧ m = 0 ∧ l = 0 ∧ (a t m l).re = (a' t m l).re)) (z φ : ℝ) (t : List Nat) (ht : Spin.Spec.Component sig t) :
    SphereField.Spec.realValue fs (spinWeight coord1 sig) L M a z φ t = SphereField.Spec.realValue fs (spinWeight coord1 sig) L M a' z φ t := by
  unfold SphereField.Spec.realValue
  refine Finset.sum_congr rfl fun m hm => ?_
  have hm' := Finset.mem_range.1 hm
  unfold SphereField.Spec.part
  by_cases hcase : m = 0 ∧ sig.length ≤ 1
  · obtain ⟨rfl, hr⟩ := hcase
    rw [zero_mode, one_mul, one_mul]
    refine backward_re h hf hr _ _ (fun t ht hs => ?_) (fun t ht => ?_) t ht
    · refine Finset.sum_congr rfl fun l hl => ?_
      have hl' := Finset.mem_Ico.1 hl
      rcases haa t ht 0 l (by omega) (by omega) (by omega) (by omega) with e | ⟨_, _, e, _⟩
      · rw [e]
      · omega
    · unfold SphereField.Spec.spinPart
      rw [Complex.re_sum, Complex.re_sum]
      refine Finset.sum_congr rfl fun l hl => ?_
      have hl' := Finset.mem_Ico.1 hl
      rw [Complex.re_ofReal_mul, Complex.re_ofReal_mul]
      rcases haa t ht 0 l (by omega) (by omega) (by omega) (by omega) with e | ⟨_, _, _, e⟩ <;> rw [e]
  · rw [backward_congr h hf _ (SphereField.Spec.spinPart (spinWeight coord1 sig) L a' m z) (fun t ht => ?_) t ht]
    refine Finset.sum_congr rfl fun l hl => ?_
    have hl' := Finset.mem_Ico.1 hl
    rcases haa t ht m l (by omega) (by omega) (by omega) (by omega) with e | ⟨e, e', _⟩
    · rw [e]
    · exact absurd ⟨e', e⟩ hcase

/-- Which coefficients a complex field on the sphere depends on. -/
theorem sphere_value_congr_complex (h : Spin.Spec.Suitable coord0 coord1 sig) (hf : Spin.factors coord1 sig = some fs) (L M : Nat)
    (a a' : List Nat → Int → Int → ℂ)
    (haa : ∀ t, Spin.Spec.Component sig t → ∀ (m : Int) (l : Nat), m.natAbs ≤ M → m.natAbs ≤ l → (spinWeight coord1 sig t).natAbs ≤ l → l ≤ L →
      a t m l = a' t m l) (z φ : ℝ) (t : List Nat) (ht : Spin.Spec.Component sig t) :
    SphereField.Spec.complexValue fs (spinWeight coord1 sig) L M a z φ t = SphereField.Spec.complexValue fs (spinWeight coord1 sig) L M a' z φ t := by
  unfold SphereField.Spec.complexValue
  refine Finset.sum_congr rfl fun m hm => ?_
  have hm' := Finset.mem_Icc.1 hm
  unfold SphereField.Spec.part
  rw [backward_congr h hf _ (SphereField.Spec.spinPart (spinWeight coord1 sig) L a' m z) (fun t ht => ?_) t ht]
  refine Finset.sum_congr rfl fun l hl => ?_
  have hl' := Finset.mem_Ico.1 hl
  rw [haa t ht m l (by omega) (by omega) (by omega) (by omega)]

end

/-- the slots of coefficient data -/
def Slot (d : Dtype) (Nphi L : Nat) (p : Nat × Nat) : Prop := p.1 < (sphereShape d Nphi L).1 ∧ p.2 < (sphereShape d Nphi L).2

theorem group_eq {d : Dtype} {Nphi L i j : Nat} {g : Int × Int} (h : sphereGroup d Nphi L i j = some g) : group d Nphi L i j = g := by
  cases d <;> exact Option.some.inj h

theorem slot_real {Nphi Ntheta : Nat} (hA : Spec.Allowed .real Nphi Ntheta) :
    (∀ p, Slot .real Nphi (lmaxOf .real Ntheta) p →
      0 ≤ (group .real Nphi (lmaxOf .real Ntheta) p.1 p.2).1 ∧
      (group .real Nphi (lmaxOf .real Ntheta) p.1 p.2).1 ≤ (group .real Nphi (lmaxOf .real Ntheta) p.1 p.2).2) ∧
    ∀ p p', Slot .real Nphi (lmaxOf .real Ntheta) p → Slot .real Nphi (lmaxOf .real Ntheta) p' →
      group .real Nphi (lmaxOf .real Ntheta) p.1 p.2 = group .real Nphi (lmaxOf .real Ntheta) p'.1 p'.2 → p.1 % 2 = p'.1 % 2 → p = p' := by
  generalize hL : lmaxOf .real Ntheta = L
  have hL' : L = Ntheta - 2 := hL.symm
  unfold Slot group
  rcases hA.2 with rfl | ⟨h0, ⟨Q, rfl⟩, h2⟩
  · have hs : sphereShape .real 1 L = (2, L + 1) := rfl
    have hg : ∀ p : Nat × Nat, p.1 < 2 → p.2 < L + 1 → Sphere.groupReal 1 L p.1 p.2 = (0, (p.2 : Int)) := by
      intro p h1 h2
      unfold Sphere.groupReal
      simp only [if_pos h1]
      rw [if_neg (by omega)]
    rw [hs]
    refine ⟨fun p hp => by simp only [hg p hp.1 hp.2]; omega, fun p p' hp hp' e e' => ?_⟩
    simp only [hg p hp.1 hp.2, hg p' hp'.1 hp'.2, Prod.mk.injEq, Nat.cast_inj, true_and] at e
    obtain ⟨h1, h2⟩ := hp
    obtain ⟨h3, h4⟩ := hp'
    exact Prod.ext (by simp only at *; omega) e
  · simp only [Dtype.parts] at *
    rw [show 2 * 2 * Q = 4 * Q by ring] at *
    have hs : sphereShape .real (4 * Q) L = Sphere.shapeReal (4 * Q) L := by
      unfold sphereShape
      rw [if_pos (by unfold mmax; omega)]
    obtain ⟨s1, s2⟩ := Sphere.slots_real_partial Q L (by omega) (by omega)
    rw [hs]
    refine ⟨fun p hp => ?_, fun p p' hp hp' e e' => ?_⟩
    · have := s1 p.1 p.2 hp.1 hp.2
      unfold Sphere.Spec.Mode at this
      have h3 := this.2.2.1
      rw [Int.abs_eq_natAbs] at h3
      omega
    · exact (s2 _ _ (s1 p.1 p.2 hp.1 hp.2) (p.1 % 2) (by omega)).unique ⟨⟨hp.1, rfl, hp.2⟩, rfl⟩ ⟨⟨hp'.1, e'.symm, hp'.2⟩, e.symm⟩

theorem slot_complex {Nphi Ntheta : Nat} (hA : Spec.Allowed .complex Nphi Ntheta) :
    (∀ p, Slot .complex Nphi (lmaxOf .complex Ntheta) p →
      |(group .complex Nphi (lmaxOf .complex Ntheta) p.1 p.2).1| ≤ (group .complex Nphi (lmaxOf .complex Ntheta) p.1 p.2).2) ∧
    ∀ p p', Slot .complex Nphi (lmaxOf .complex Ntheta) p → Slot .complex Nphi (lmaxOf .complex Ntheta) p' →
      group .complex Nphi (lmaxOf .complex Ntheta) p.1 p.2 = group .complex Nphi (lmaxOf .complex Ntheta) p'.1 p'.2 → p = p' := by
  generalize hL : lmaxOf .complex Ntheta = L
  have hL' : L = Ntheta - 1 := hL.symm
  unfold Slot group
  by_cases hm : mmax Nphi = 0
  · have hs : sphereShape .complex Nphi L = (1, L + 1) := by
      unfold sphereShape
      rw [if_neg (by omega)]
      rfl
    have hg : ∀ p : Nat × Nat, p.1 < 1 → p.2 < L + 1 → Sphere.groupComplex Nphi L p.1 p.2 = (0, (p.2 : Int)) := by
      intro p h1 h2
      unfold Sphere.groupComplex
      simp only [if_pos (show p.1 = 0 by omega)]
      rw [if_neg (by omega)]
    rw [hs]
    refine ⟨fun p hp => by simp only [hg p hp.1 hp.2, abs_zero]; omega, fun p p' hp hp' e => ?_⟩
    simp only [hg p hp.1 hp.2, hg p' hp'.1 hp'.2, Prod.mk.injEq, Nat.cast_inj, true_and] at e
    obtain ⟨h1, h2⟩ := hp
    obtain ⟨h3, h4⟩ := hp'
    exact Prod.ext (by simp only at *; omega) e
  · rcases hA.2 with rfl | ⟨h0, ⟨M, rfl⟩, h2⟩
    · exact absurd rfl hm
    simp only [Dtype.parts] at *
    rw [show 2 * 1 * M = 2 * M by ring] at *
    have hs : sphereShape .complex (2 * M) L = Sphere.shapeComplex (2 * M) L := by
      unfold sphereShape
      rw [if_pos (by omega)]
    obtain ⟨s1, s2⟩ := Sphere.slots_complex_partial M L (by omega) (by omega)
    rw [hs]
    refine ⟨fun p hp => (s1 p.1 p.2 hp.1 hp.2).2.2.1, fun p p' hp hp' e => ?_⟩
    exact (s2 _ _ (s1 p.1 p.2 hp.1 hp.2)).unique ⟨hp, rfl⟩ ⟨hp', e.symm⟩

/-! ## Polar -/

theorem rows_real {Nphi : Nat} (hA : PolarField.Spec.Accepted .real Nphi) (i i' : Nat) (hi : i < polarRows .real Nphi) (hi' : i' < polarRows .real Nphi)
    (e : wave .real Nphi i = wave .real Nphi i') (e' : i % 2 = i' % 2) : i = i' := by
  rcases hA with rfl | ⟨h1, Q, rfl⟩
  · have h2 : polarRows .real 1 = 2 := rfl
    omega
  · simp only [Dtype.parts] at *
    rw [show 2 * 2 * Q = 4 * Q by ring] at *
    have h2 : polarRows .real (4 * Q) = 4 * Q := by show (if 4 * Q > 1 then _ else _) = _; rw [if_pos (by omega)]
    have hm : mmax (4 * Q) ≠ 0 := by unfold mmax; omega
    have p1 := perm_real_part Q i (by omega) (by omega)
    have p2 := perm_real_part Q i' (by omega) (by omega)
    rw [real_wave_perm, real_wave_perm] at e
    refine perm_inj .real (4 * Q) (4 * Q) ⟨by omega, Or.inr ⟨by omega, ⟨Q, by simp only [Dtype.parts]⟩, by omega⟩⟩ hm i i' (by omega) (by omega) ?_
    have : perm .real (4 * Q) i / 2 = perm .real (4 * Q) i' / 2 := by exact_mod_cast e
    omega

theorem native_inj {Nphi k k' : Nat} (h : k < Nphi) (h' : k' < Nphi) (e : native .complex Nphi k = native .complex Nphi k') : k = k' := by
  simp only [native, Sphere.nativeComplex] at e
  split_ifs at e <;> omega

theorem rows_complex {Nphi : Nat} (hA : PolarField.Spec.Accepted .complex Nphi) (i i' : Nat) (hi : i < Nphi) (hi' : i' < Nphi)
    (e : wave .complex Nphi i = wave .complex Nphi i') : i = i' := by
  by_cases hm : mmax Nphi = 0
  · unfold mmax at hm
    rcases hA with rfl | ⟨h1, _⟩ <;> omega
  · have h1 := perm_lt .complex Nphi Nphi hA.allowed hm i hi
    have h2 := perm_lt .complex Nphi Nphi hA.allowed hm i' hi'
    exact perm_inj .complex Nphi Nphi hA.allowed hm i i' hi hi' (native_inj h1 h2 e)

/-- Row 0 is the one of order zero. -/
theorem zero_row {Nphi : Nat} (hA : PolarField.Spec.Accepted .complex Nphi) (i : Nat) (hi : i < Nphi) (e : wave .complex Nphi i = 0) : i = 0 := by
  refine rows_complex hA i 0 hi (by omega) ?_
  rw [e]
  unfold wave
  have : perm .complex Nphi 0 = 0 := by unfold perm; split <;> simp [Sphere.permComplex]
  rw [this]
  simp [native, Sphere.nativeComplex]

section
variable {coord0 coord1 : Spin.Coord} {sig : List Spin.Index} {fs : List (Option Spin.Mat)}

theorem polar_value_congr (h : Spin.Spec.Suitable coord0 coord1 sig) (hf : Spin.factors coord1 sig = some fs) (R : Int → Int → Nat → ℝ → ℝ) (Nr M : Nat)
    (a a' : List Nat → Int → Nat → ℂ) (r φ : ℝ)
    (haa : ∀ t, Spin.Spec.Component sig t → ∀ m n : Nat, m ≤ M → n < Nr → R (spinWeight coord1 sig t) m n r ≠ 0 →
      a t m n = a' t m n ∨ (sig = [] ∧ m = 0 ∧ (a t m n).re = (a' t m n).re)) (t : List Nat) (ht : Spin.Spec.Component sig t) :
    PolarField.Spec.realValue R fs (spinWeight coord1 sig) Nr M a r φ t = PolarField.Spec.realValue R fs (spinWeight coord1 sig) Nr M a' r φ t := by
  unfold PolarField.Spec.realValue
  refine Finset.sum_congr rfl fun m hm => ?_
  have hm' := Finset.mem_range.1 hm
  unfold PolarField.Spec.part
  by_cases hcase : m = 0 ∧ sig = []
  · obtain ⟨rfl, rfl⟩ := hcase
    rw [zero_mode, one_mul, one_mul]
    refine backward_re h hf (by simp) _ _ (fun t ht hs => ?_) (fun t ht => ?_) t ht
    · cases ht
      exact absurd rfl hs
    · unfold PolarField.Spec.spinPart
      rw [Complex.re_sum, Complex.re_sum]
      refine Finset.sum_congr rfl fun n hn => ?_
      rw [Complex.re_ofReal_mul, Complex.re_ofReal_mul]
      by_cases hR : R (spinWeight coord1 [] t) ((0 : Nat) : Int) n r = 0
      · rw [hR, zero_mul, zero_mul]
      · rcases haa t ht 0 n (by omega) (Finset.mem_range.1 hn) hR with e | ⟨_, _, e⟩ <;> rw [e]
  · rw [backward_congr h hf _ (PolarField.Spec.spinPart R (spinWeight coord1 sig) Nr a' m r) (fun t ht => ?_) t ht]
    refine Finset.sum_congr rfl fun n hn => ?_
    by_cases hR : R (spinWeight coord1 sig t) m n r = 0
    · rw [hR, Complex.ofReal_zero, zero_mul, zero_mul]
    · rcases haa t ht m n (by omega) (Finset.mem_range.1 hn) hR with e | ⟨e, e', _⟩
      · rw [e]
      · exact absurd ⟨e', e⟩ hcase

theorem polar_value_congr_complex (h : Spin.Spec.Suitable coord0 coord1 sig) (hf : Spin.factors coord1 sig = some fs) (R : Int → Int → Nat → ℝ → ℝ)
    (Nr M : Nat) (a a' : List Nat → Int → Nat → ℂ) (r φ : ℝ)
    (haa : ∀ t, Spin.Spec.Component sig t → ∀ (m : Int) (n : Nat), m.natAbs ≤ M → n < Nr → R (spinWeight coord1 sig t) m n r ≠ 0 → a t m n = a' t m n)
    (t : List Nat) (ht : Spin.Spec.Component sig t) :
    PolarField.Spec.complexValue R fs (spinWeight coord1 sig) Nr M a r φ t = PolarField.Spec.complexValue R fs (spinWeight coord1 sig) Nr M a' r φ t := by
  unfold PolarField.Spec.complexValue
  refine Finset.sum_congr rfl fun m hm => ?_
  have hm' := Finset.mem_Icc.1 hm
  unfold PolarField.Spec.part
  rw [backward_congr h hf _ (PolarField.Spec.spinPart R (spinWeight coord1 sig) Nr a' m r) (fun t ht => ?_) t ht]
  refine Finset.sum_congr rfl fun n hn => ?_
  by_cases hR : R (spinWeight coord1 sig t) m n r = 0
  · rw [hR, Complex.ofReal_zero, zero_mul, zero_mul]
  · rw [haa t ht m n (by omega) (Finset.mem_range.1 hn) hR]

end

/-! ## Volumes -/

/-- Forbidden regularity components do not contribute. -/
theorem intertwiner_forbidden (ell rank : Nat) (t s : List Nat) (h : VolumeField.Valid rank t) (h' : VolumeField.Valid rank s)
    (ha : ¬Regularity.Spec.Allowed ell (VolumeField.regs t)) : Regularity.intertwiner ell (VolumeField.regs t) (VolumeField.regs s) = 0 := by
  have hg := VolumeField.gram ell rank t t h h
  rw [if_neg (fun e => ha e.2)] at hg
  have h0 := List.all_zero_of_le_zero_le_of_sum_eq_zero (l := (VolumeField.indices rank).map fun s =>
      Regularity.intertwiner ell (VolumeField.regs t) (VolumeField.regs s) * Regularity.intertwiner ell (VolumeField.regs t) (VolumeField.regs s))
    (fun x hx => by obtain ⟨s, _, rfl⟩ := List.mem_map.1 hx; exact mul_self_nonneg _) hg
    (List.mem_map.2 ⟨s, (VolumeField.mem_indices rank s).2 h', rfl⟩)
  exact mul_self_eq_zero.1 h0

theorem allowedLoop_masked (l : Int) (hl : 0 ≤ l) : ∀ reg, allowedLoop true l true reg = true
  | [] => rfl
  | dr :: reg => by
    simp only [allowedLoop, if_true, if_neg (show ¬l < 0 by omega), Bool.true_eq_false, and_false, if_false, ite_self]
    exact allowedLoop_masked l hl reg

theorem allowedLoop_plain : ∀ (l : Int) (v : Bool) reg, allowedLoop false l v reg = Regularity.allowedLoop l v reg
  | _, _, [] => rfl
  | l, v, dr :: reg => by
    simp only [allowedLoop, Regularity.allowedLoop, Bool.false_eq_true, if_false, and_true]
    exact allowedLoop_plain _ _ reg

theorem allowedLoop_iff (ell rank : Nat) (t : List Nat) (h : VolumeField.Valid rank t) :
    allowedLoop false ell true (VolumeField.regs t).reverse = true ↔ Regularity.Spec.Allowed ell (VolumeField.regs t) := by
  rw [allowedLoop_plain]
  have h1 := Regularity.allowed_vectorized_correct ell rank (VolumeField.regs t) (VolumeField.regs_component h)
  unfold Regularity.allowedVectorized at h1
  rw [h1]
  have h2 := Regularity.forbidden_iff ell (VolumeField.regs t) (VolumeField.regs_component h).2
  rw [← Regularity.allowed_spec]
  cases hf : Regularity.forbiddenRegularity ell (VolumeField.regs t) <;> simp_all

end Dedalus.Modes
