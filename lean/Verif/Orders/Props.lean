import Verif.Orders.Spec
import Verif.Orders.Zonal
import Verif.Sphere.Props

/-! # C93: colatitude and radial transforms pair every order with its coefficients on every process -/

namespace Dedalus.Orders
open Subsys Dist Spec

theorem transforms_pack {b C L sh : Nat} {o : Nat → Int} {G : Nat → Nat → Option (Int × Int)} {w : Nat → Int} (hp : Pack b C L sh o G w)
    (part : Nat → Nat) (hpart : ∀ r, r < 2 * b * C → part r = r % b) (Ng P p : Nat) (hg : 0 < Ng) :
    ∃ maps, (localGroupsets [false, true] ((allIdx [(localElements true (azimuth P (b * C) b) p).length, L + 1 + sh]).map
        (coeffGroups G (localElements true (azimuth P (b * C) b) p)))).mapM
      (entry true G w b (localElements true (azimuth P (b * C) b) p) (localElements true (azimuth P (2 * b * C) (2 * b)) p) (L + 1 + sh) Ng) = some maps ∧
      Transforms G w part b (localElements true (azimuth P (b * C) b) p) (localElements true (azimuth P (2 * b * C) (2 * b)) p)
        (L + 1 + sh) L maps := by
  have hb := hp.hb
  rw [rows_eq P b C p hb, rows_eq P (2 * b) C p (by omega)]
  have ht := hi_le P C p
  generalize lo P C p = s at *
  generalize hi P C p = t at *
  obtain ⟨maps, h1, h2, h3⟩ := maps_pack hp s t Ng ht hg
  have hlt : ∀ i, i < 2 * b * (t - s) → 2 * b * s + i < 2 * b * C := by
    intro i hi
    have hd := div_in hi
    have h4 : (2 * b * s + i) / (2 * b) < C := lt_of_lt_of_le hd.2.1 ht
    rw [Nat.div_lt_iff_lt_mul (by omega), Nat.mul_comm C (2 * b)] at h4
    exact h4
  refine ⟨maps, h1, h3, ?_, ?_, ?_⟩
  · intro e he
    obtain ⟨k, h, a1, a2, a3, rfl⟩ := (h2 e).1 he
    have := width_pack hp k (by omega) h a3
    exact ⟨this.1, this.2, rfl, rfl⟩
  · intro V _ T u g hu i r j hr hj
    obtain ⟨hi, rfl⟩ := (range'_get _ _ _ _).1 hr
    exact forward_pack hp s t ht maps h2 T u g (fun i hi => by
      rw [hu i _ ((range'_get _ _ _ _).2 ⟨hi, rfl⟩), hpart _ (hlt i hi)]) i j hi hj
  · intro V _ S a c hc i r x hr
    obtain ⟨hi, rfl⟩ := (range'_get _ _ _ _).1 hr
    rw [backward_pack hp s t ht maps h2 S a c (fun i j m l hi hj hG => hc i _ j m l ((range'_get _ _ _ _).2 ⟨hi, rfl⟩) hj hG) i x hi,
      hpart _ (hlt i hi)]

theorem transforms_zonal (G : Nat → Nat → Option (Int × Int)) (w : Nat → Int) (part : Nat → Nat) (b L Ng P p : Nat) (hb : 0 < b)
    (hg : 0 < Ng) (hG : ∀ r j, r < b → j < L + 1 → G r j = some (0, (j : Int))) (hw : ∀ r, r < b → w r = 0)
    (hpart : ∀ r, r < b → part r = r % b) :
    ∃ maps, (localGroupsets [false, true] ((allIdx [(localElements true (azimuth P b b) p).length, L + 1]).map
        (coeffGroups G (localElements true (azimuth P b b) p)))).mapM
      (entry true G w b (localElements true (azimuth P b b) p) (localElements true (azimuth P b b) p) (L + 1) Ng) = some maps ∧
      Transforms G w part b (localElements true (azimuth P b b) p) (localElements true (azimuth P b b) p) (L + 1) L maps := by
  have e := rows_eq P b 1 p hb
  rw [Nat.mul_one] at e
  rw [e]
  have ht := hi_le P 1 p
  generalize lo P 1 p = s at *
  generalize hi P 1 p = t at *
  obtain ⟨maps, h1, h2, h3⟩ := maps_zonal G w b L Ng s t hb ht hg hG hw
  have hR := rows_zero b w hb hw
  have hlt : ∀ i, i < b * (t - s) → b * s + i < b := by
    intro i hi
    have hd := div_in hi
    have h4 : (b * s + i) / b < 1 := lt_of_lt_of_le hd.2.1 ht
    rw [Nat.div_lt_iff_lt_mul hb] at h4
    omega
  refine ⟨maps, h1, h3, ?_, ?_, ?_⟩
  · intro e he
    obtain ⟨k, a1, a2, rfl⟩ := (h2 e).1 he
    exact ⟨by simp [polE], by simp [polE], rfl, rfl⟩
  · intro V _ T u g hu i r j hr hj
    obtain ⟨hi, rfl⟩ := (range'_get _ _ _ _).1 hr
    refine ⟨0, j, hG _ _ (hlt i hi) hj, by simp, by omega, ?_⟩
    rw [forward_low hR (fun _ => 0) s t (L + 1) L ht maps h2 T u g (fun i hi => by
      rw [hu i _ ((range'_get _ _ _ _).2 ⟨hi, rfl⟩), hpart _ (hlt i hi)]) i j hi hj, hw _ (hlt i hi)]
    simp
  · intro V _ S a c hc i r x hr
    obtain ⟨hi, rfl⟩ := (range'_get _ _ _ _).1 hr
    rw [backward_low hR (fun _ => 0) s t (L + 1) L ht maps h2 S c i x hi, hw _ (hlt i hi), hpart _ (hlt i hi)]
    simp only [abs_zero, Int.natAbs_zero, Nat.sub_zero, zero_add]
    congr 2
    refine List.map_congr_left fun k hk => ?_
    exact hc i _ _ _ _ hr (List.mem_range.1 hk) (hG _ _ (hlt i hi) (List.mem_range.1 hk))

/-- C93, sphere. For every accepted resolution with `Nphi ≤ 2 Ntheta`, number of processes, process and grid, the map of orders is
built and the transforms pair each grid row with the coefficients of its order and part. -/
theorem sphere_order_maps (d : Dtype) (Nphi Ntheta Ng P p : Nat) (h : Allowed d Nphi Ntheta) (hg : 0 < Ng) :
    ∃ maps, sphereMaps d Nphi (lmaxOf d Ntheta) Ng P p = some maps ∧
      Transforms (sphereGroup d Nphi (lmaxOf d Ntheta)) (wave d Nphi) (fun r => perm d Nphi r % d.parts) d.parts
        (sphereRows d Nphi (lmaxOf d Ntheta) P p) (sphereGrid d Nphi P p) (sphereShape d Nphi (lmaxOf d Ntheta)).2 (lmaxOf d Ntheta) maps := by
  obtain ⟨hN, h⟩ := h
  unfold sphereMaps
  simp only
  cases d with
  | real =>
    rcases h with rfl | ⟨h0, ⟨Q, rfl⟩, h2⟩
    · have hm : mmax 1 = 0 := rfl
      unfold sphereRows sphereGrid sphereShape sphereGridRows sphereGridChunk
      simp only [hm, Nat.lt_irrefl, if_false, gt_iff_lt]
      exact transforms_zonal _ _ _ 2 _ Ng P p (by omega) hg
        (fun r j hr hj => by
          unfold sphereGroup Sphere.groupReal
          simp only [show r < 2 from hr, true_and, if_true]
          rw [if_neg (by omega)])
        (fun r hr => by
          have : r = 0 ∨ r = 1 := by omega
          rcases this with rfl | rfl <;> rfl)
        (fun r hr => by unfold perm; rw [if_pos hm]; rfl)
    · simp only [Dtype.parts] at h0 h2 ⊢
      have hQ : 0 < Q := by omega
      have hL : lmaxOf .real Ntheta + 2 = Ntheta := by simp only [lmaxOf]; omega
      have hm : 0 < mmax (2 * 2 * Q) := by unfold mmax; omega
      have hp := pack_real Q (lmaxOf .real Ntheta) hQ (by omega)
      have hr := transforms_pack hp (fun r => perm .real (4 * Q) r % 2) (fun r hr => perm_real_part Q r hQ (by omega)) Ng P p hg
      unfold sphereRows sphereGrid sphereShape sphereGridRows sphereGridChunk
      simp only [hm, gt_iff_lt, if_true]
      unfold Sphere.shapeReal
      simp only [show 2 * 2 * Q = 4 * Q by ring, show 4 * Q / 2 = 2 * Q by omega, Dtype.parts] at hr ⊢
      exact hr
  | complex =>
    have hz : ∀ N, N = 1 ∨ N = 2 → ∃ maps, ((localGroupsets [false, true] ((allIdx [(sphereRows .complex N (lmaxOf .complex Ntheta) P p).length,
        (sphereShape .complex N (lmaxOf .complex Ntheta)).2]).map (coeffGroups (sphereGroup .complex N (lmaxOf .complex Ntheta))
        (sphereRows .complex N (lmaxOf .complex Ntheta) P p)))).mapM
        (entry true (sphereGroup .complex N (lmaxOf .complex Ntheta)) (wave .complex N) Dtype.complex.parts (sphereRows .complex N (lmaxOf .complex Ntheta) P p)
          (sphereGrid .complex N P p) (sphereShape .complex N (lmaxOf .complex Ntheta)).2 Ng)) = some maps ∧
      Transforms (sphereGroup .complex N (lmaxOf .complex Ntheta)) (wave .complex N) (fun r => perm .complex N r % Dtype.complex.parts) Dtype.complex.parts
        (sphereRows .complex N (lmaxOf .complex Ntheta) P p) (sphereGrid .complex N P p) (sphereShape .complex N (lmaxOf .complex Ntheta)).2
        (lmaxOf .complex Ntheta) maps := by
      intro N hN
      have hm : mmax N = 0 := by rcases hN with rfl | rfl <;> rfl
      unfold sphereRows sphereGrid sphereShape sphereGridRows sphereGridChunk
      simp only [hm, Nat.lt_irrefl, if_false, gt_iff_lt]
      exact transforms_zonal _ _ _ 1 _ Ng P p (by omega) hg
        (fun r j hr hj => by
          have : r = 0 := by omega
          subst this
          unfold sphereGroup Sphere.groupComplex
          simp only [true_and, if_true]
          rw [if_neg (by omega)])
        (fun r hr => by
          have : r = 0 := by omega
          subst this
          rcases hN with rfl | rfl <;> rfl)
        (fun r hr => by simp [Dtype.parts, Nat.mod_one])
    rcases h with rfl | ⟨h0, ⟨M, rfl⟩, h2⟩
    · exact hz 1 (Or.inl rfl)
    · simp only [Dtype.parts] at h0 h2 ⊢
      by_cases hM : M = 1
      · subst hM
        exact hz 2 (Or.inr rfl)
      · have hL : lmaxOf .complex Ntheta + 1 = Ntheta := by simp only [lmaxOf]; omega
        have hm : 0 < mmax (2 * 1 * M) := by unfold mmax; omega
        have hp := pack_complex M (lmaxOf .complex Ntheta) (by omega) (by omega)
        have hr := transforms_pack hp (fun r => perm .complex (2 * M) r % 1) (fun r hr => by rw [Nat.mod_one, Nat.mod_one]) Ng P p hg
        unfold sphereRows sphereGrid sphereShape sphereGridRows sphereGridChunk
        simp only [hm, gt_iff_lt, if_true]
        unfold Sphere.shapeComplex
        simp only [show 2 * 1 * M = 2 * M by ring, show 2 * M / 2 = M by omega, Dtype.parts, Nat.one_mul, Nat.mul_one] at hr ⊢
        exact hr

/-- 16 by 8 points on process 1 of 3: orders 2, 3 and, folded, 5, 4. -/
example : Allowed .real 16 8 ∧ sphereMaps .real 16 (lmaxOf .real 8) 8 3 1 = some [⟨5, (2, 4), (0, 2), (0, 2), true⟩, ⟨2, (0, 2), (0, 2), (2, 7), false⟩,
    ⟨4, (6, 8), (2, 4), (0, 3), true⟩, ⟨3, (4, 6), (2, 4), (3, 7), false⟩] := by
  refine ⟨⟨by decide, Or.inr ⟨by decide, by decide, by decide⟩⟩, by decide +kernel⟩

example : Allowed .complex 8 6 ∧ sphereMaps .complex 8 5 6 2 1 = some [⟨-2, (1, 2), (0, 1), (0, 4), true⟩, ⟨2, (0, 1), (0, 1), (4, 8), false⟩,
    ⟨-1, (3, 4), (1, 2), (0, 5), true⟩, ⟨3, (2, 3), (1, 2), (5, 8), false⟩] := by
  refine ⟨⟨by decide, Or.inr ⟨by decide, by decide, by decide⟩⟩, by decide +kernel⟩

/-! ## With the matrices of the code -/

/-- The loops with the matrices of spin weight `s` (`Verif.Sphere`). -/
noncomputable def swshForward {V : Type} [AddCommGroup V] [Module ℝ V] (Ng L : Nat) (s : Int) (q : Nat → ℝ) (m : Int) (u : Nat → V) : Nat → V :=
  Sphere.forward Ng L m s q u (fun _ => 0)

noncomputable def swshBackward {V : Type} [AddCommGroup V] [Module ℝ V] (Ng L : Nat) (s : Int) (q : Nat → ℝ) (m : Int) (v : List V) : Nat → V :=
  Sphere.backward Ng L m s q (fun k => v.getD k 0)

/-- C93 with C66. On every process, the grid rows are the values of the series of spin-weighted harmonics of their order and part, and
transforming back returns the coefficients of all harmonics that exist for this spin weight. -/
theorem distributed_swsh (d : Dtype) (Nphi Ntheta Ng P p : Nat) (h : Allowed d Nphi Ntheta) (hg : lmaxOf d Ntheta < Ng) (s : Int) (q : Nat → ℝ)
    (hq : Jacobi.GridGuess Ng 0 0 q) (V : Type) [AddCommGroup V] [Module ℝ V] (a : Int → Int → Nat → V) (c : Nat → Nat → V)
    (hc : ∀ i r j m l, (sphereRows d Nphi (lmaxOf d Ntheta) P p)[i]? = some r → j < (sphereShape d Nphi (lmaxOf d Ntheta)).2 →
      sphereGroup d Nphi (lmaxOf d Ntheta) r j = some (m, l) → c i j = a m l (r % d.parts)) :
    ∃ maps, sphereMaps d Nphi (lmaxOf d Ntheta) Ng P p = some maps ∧
      (∀ i r t, (sphereGrid d Nphi P p)[i]? = some r → t < Ng → backward maps (lmaxOf d Ntheta) (swshBackward Ng (lmaxOf d Ntheta) s q) c i t =
        ∑ l ∈ Finset.Ico (max (wave d Nphi r).natAbs s.natAbs) (lmaxOf d Ntheta + 1),
          Sphere.Spec.Y l (wave d Nphi r) s (Sphere.grid Ng q t).1 • a (wave d Nphi r) l (perm d Nphi r % d.parts)) ∧
      ∀ i r j, (sphereRows d Nphi (lmaxOf d Ntheta) P p)[i]? = some r → j < (sphereShape d Nphi (lmaxOf d Ntheta)).2 →
        ∃ m l, sphereGroup d Nphi (lmaxOf d Ntheta) r j = some (m, l) ∧
          forward maps (lmaxOf d Ntheta) (swshForward Ng (lmaxOf d Ntheta) s q) (backward maps (lmaxOf d Ntheta) (swshBackward Ng (lmaxOf d Ntheta) s q) c) i j =
            if |s| ≤ l then c i j else 0 := by
  obtain ⟨maps, hm, ht⟩ := sphere_order_maps d Nphi Ntheta Ng P p h (by omega)
  generalize lmaxOf d Ntheta = L at *
  have hback : ∀ i r t, (sphereGrid d Nphi P p)[i]? = some r → t < Ng → backward maps L (swshBackward Ng L s q) c i t =
        ∑ l ∈ Finset.Ico (max (wave d Nphi r).natAbs s.natAbs) (L + 1),
          Sphere.Spec.Y l (wave d Nphi r) s (Sphere.grid Ng q t).1 • a (wave d Nphi r) l (perm d Nphi r % d.parts) := by
    intro i r t hr hlt
    rw [ht.backward V (swshBackward Ng L s q) a c hc i r t hr]
    by_cases hw : |wave d Nphi r| ≤ (L : Int)
    · have hw' : (wave d Nphi r).natAbs ≤ L := by rw [Int.abs_eq_natAbs] at hw; omega
      rw [if_pos hw]
      unfold swshBackward
      rw [Sphere.swsh_backward_exact Ng L (by omega) _ s (by omega) hw' q hq _ t hlt, Nat.min_eq_left (by omega)]
      refine Finset.sum_congr rfl fun l hl => ?_
      rw [Finset.mem_Ico] at hl
      congr 1
      rw [List.getD_eq_getElem?_getD, List.getElem?_map, List.getElem?_range (by omega)]
      simp only [Option.map_some, Option.getD_some]
      congr 1
      rw [Int.abs_eq_natAbs]
      omega
    · rw [if_neg hw, Finset.Ico_eq_empty, Finset.sum_empty]
      rw [Int.abs_eq_natAbs] at hw
      omega
  refine ⟨maps, hm, hback, ?_⟩
  intro i r j hr hj
  obtain ⟨m, l, h1, h2, h3, h4⟩ := ht.forward V (swshForward Ng L s q)
    (fun m part t => Sphere.backward Ng L m s q (fun k => a m (|m| + (k : Int)) part) t)
    (fun i t => if t < Ng then backward maps L (swshBackward Ng L s q) c i t else
      match (sphereGrid d Nphi P p)[i]? with
      | some r => Sphere.backward Ng L (wave d Nphi r) s q (fun k => a (wave d Nphi r) (|wave d Nphi r| + (k : Int)) (perm d Nphi r % d.parts)) t
      | none => 0) (by
      intro i r hr
      funext t
      by_cases hlt : t < Ng
      · rw [if_pos hlt, hback i r t hr hlt]
        by_cases hw : (wave d Nphi r).natAbs ≤ L
        · rw [Sphere.swsh_backward_exact Ng L (by omega) _ s (by omega) hw q hq _ t hlt, Nat.min_eq_left (by omega)]
          refine Finset.sum_congr rfl fun l hl => ?_
          rw [Finset.mem_Ico] at hl
          congr 2
          rw [Int.abs_eq_natAbs]
          omega
        · rw [Finset.Ico_eq_empty (by omega), Finset.sum_empty]
          unfold Sphere.backward
          rw [if_pos (by rw [Int.abs_eq_natAbs]; omega)]
      · rw [if_neg hlt, hr]) i r j hr hj
  refine ⟨m, l, h1, ?_⟩
  have hml : |m| = (m.natAbs : Int) := Int.abs_eq_natAbs m
  have hsl : |s| = (s.natAbs : Int) := Int.abs_eq_natAbs s
  have e1 : forward maps L (swshForward Ng L s q) (backward maps L (swshBackward Ng L s q) c) i j =
      forward maps L (swshForward Ng L s q) (fun i t => if t < Ng then backward maps L (swshBackward Ng L s q) c i t else
      match (sphereGrid d Nphi P p)[i]? with
      | some r => Sphere.backward Ng L (wave d Nphi r) s q (fun k => a (wave d Nphi r) (|wave d Nphi r| + (k : Int)) (perm d Nphi r % d.parts)) t
      | none => 0) i j := by
    have hcongr : ∀ (m : Int) (u v : Nat → V), (∀ t, t < Ng → u t = v t) → swshForward Ng L s q m u = swshForward Ng L s q m v := by
      intro m u v huv
      funext k
      unfold swshForward Sphere.forward
      split
      · exact Finset.sum_congr rfl fun t ht => by rw [huv t (Finset.mem_range.1 ht)]
      · rfl
    rw [forward_congr]
    intro m i
    exact hcongr _ _ _ fun t ht => by rw [if_pos ht]
  rw [e1, h4]
  unfold swshForward
  rw [Sphere.swsh_round_trip Ng L (by omega) m s (by omega) (by omega) q hq _ _ _ (by omega)]
  rw [hc i r j m l hr hj h1]
  by_cases hs : |s| ≤ l
  · rw [if_pos hs, if_pos (by omega)]
    congr 1
    omega
  · rw [if_neg hs, if_neg (by omega)]

/-- The hypotheses are met with 16 by 8 points and 12 colatitudes on the dealiased grid. -/
example : Allowed .real 16 8 ∧ lmaxOf .real 8 < 12 := ⟨⟨by decide, Or.inr ⟨by decide, by decide, by decide⟩⟩, by decide⟩

/-! ## Disk and annulus -/

theorem nmin_cast (disk : Bool) (m : Int) : ((nmin disk m).toNat : Int) = nmin disk m := by
  unfold nmin
  split
  · exact Int.toNat_of_nonneg (Int.ediv_nonneg (abs_nonneg m) (by omega))
  · rfl

theorem polarGroup_eq (disk : Bool) (d : Dtype) (Nphi : Nat) : polarGroup disk d Nphi = lowGroup (fun m => (nmin disk m).toNat) (wave d Nphi) := by
  funext i n
  unfold polarGroup lowGroup
  have := nmin_cast disk (wave d Nphi i)
  dsimp only
  by_cases h : (n : Int) < nmin disk (wave d Nphi i)
  · rw [if_pos h, if_pos (by omega)]
  · rw [if_neg h, if_neg (by omega)]

theorem radial_low {b C : Nat} {v w : Nat → Int} (hp : Rows b C v w) (part : Nat → Nat) (hpart : ∀ r, r < b * C → part r = r % b)
    (nm : Int → Nat) (N Ng lim P p : Nat) (hg : 0 < Ng) (hn : ∀ k, k < C → nm (v k) < N) :
    ∃ maps, (localGroupsets [false, true] ((allIdx [(localElements true (azimuth P (b * C) b) p).length, Ng]).map
        (gridGroups w (localElements true (azimuth P (b * C) b) p)))).mapM
      (entry false (lowGroup nm w) w b (localElements true (azimuth P (b * C) b) p) (localElements true (azimuth P (b * C) b) p) N Ng) = some maps ∧
      Radial w part b (localElements true (azimuth P (b * C) b) p) nm N lim maps := by
  have hb := hp.hb
  rw [rows_eq P b C p hb]
  have ht := hi_le P C p
  generalize lo P C p = s at *
  generalize hi P C p = t at *
  obtain ⟨maps, h1, h2, h3⟩ := maps_low hp nm s t N Ng ht hg hn
  have hlt : ∀ i, i < b * (t - s) → b * s + i < b * C := by
    intro i hi
    have hd := div_in hi
    have h4 : (b * s + i) / b < C := lt_of_lt_of_le hd.2.1 ht
    rw [Nat.div_lt_iff_lt_mul hb, Nat.mul_comm C b] at h4
    exact h4
  refine ⟨maps, h1, h3, ?_, ?_, ?_⟩
  · intro e he
    obtain ⟨k, a1, a2, rfl⟩ := (h2 e).1 he
    exact ⟨rfl, rfl, rfl, rfl⟩
  · intro V _ T u g hu i r n hr hn
    obtain ⟨hi, rfl⟩ := (range'_get _ _ _ _).1 hr
    rw [forward_low hp nm s t N lim ht maps h2 T u g (fun i hi => by
      rw [hu i _ ((range'_get _ _ _ _).2 ⟨hi, rfl⟩), hpart _ (hlt i hi)]) i n hi hn, hpart _ (hlt i hi)]
  · intro V _ S c i r x hr
    obtain ⟨hi, rfl⟩ := (range'_get _ _ _ _).1 hr
    exact backward_low hp nm s t N lim ht maps h2 S c i x hi

/-- Every order has a radial mode. -/
def Spec.PolarAllowed (disk : Bool) (d : Dtype) (Nphi Nr : Nat) : Prop :=
  0 < Nr ∧ ((d = .complex ∧ Nphi = 1) ∨ (0 < Nphi ∧ 2 * d.parts ∣ Nphi)) ∧
    (disk = true → match d with
      | .real => Nphi ≤ 4 * Nr
      | .complex => Nphi < 4 * Nr)

/-- C93, disk and annulus. For every number of processes, process and grid the map of orders is built, both layouts have the same rows and
the transforms pair each grid row with the radial modes of its order and part. Orders above `2 (Nr - 1)` are not transformed. -/
theorem polar_order_maps_partial (disk : Bool) (d : Dtype) (Nphi Nr Ng P p : Nat) (h : PolarAllowed disk d Nphi Nr) (hg : 0 < Ng) :
    polarCoeff d Nphi P p = polarGrid d Nphi P p ∧
    ∃ maps, polarMaps disk d Nphi Nr Ng P p = some maps ∧
      Radial (wave d Nphi) (fun r => perm d Nphi r % d.parts) d.parts (polarGrid d Nphi P p) (fun m => (nmin disk m).toNat) Nr (2 * (Nr - 1)) maps := by
  obtain ⟨hN, h, hd⟩ := h
  unfold polarMaps
  simp only [polarGroup_eq]
  have hnm : ∀ m : Int, (disk = true → m.natAbs < 2 * Nr) → (nmin disk m).toNat < Nr := by
    intro m hm
    have := nmin_cast disk m
    unfold nmin at *
    cases disk with
    | false => simpa using hN
    | true =>
      have := hm rfl
      simp only [if_true] at *
      rw [Int.abs_eq_natAbs] at *
      omega
  cases d with
  | real =>
    rcases h with ⟨h, -⟩ | ⟨h0, ⟨Q, rfl⟩⟩
    · cases h
    · simp only [Dtype.parts] at h0 hd ⊢
      have hQ : 0 < Q := by omega
      have hm : ¬mmax (2 * 2 * Q) = 0 := by unfold mmax; omega
      have hp := rows_real Q hQ
      have hr := radial_low hp (fun r => perm .real (4 * Q) r % 2) (fun r hr => perm_real_part Q r hQ (by omega))
        (fun m => (nmin disk m).toNat) Nr Ng (2 * (Nr - 1)) P p hg (by
          intro k hk
          refine hnm _ fun hdisk => ?_
          have := hd hdisk
          unfold vReal oReal
          split <;> omega)
      unfold polarCoeff polarGrid polarRows polarGridChunk
      simp only [hm, if_false, show 2 * 2 * Q > 1 by omega, if_true, Dtype.parts]
      simp only [show 2 * 2 * Q = 4 * Q by ring] at hr ⊢
      rw [show 2 * (2 * Q) = 4 * Q by ring] at hr
      exact ⟨trivial, hr⟩
  | complex =>
    have key : ∀ N v, Rows 1 N v (wave .complex N) → (∀ k, k < N → disk = true → (v k).natAbs < 2 * Nr) →
        polarCoeff .complex N P p = polarGrid .complex N P p ∧ ∃ maps, ((localGroupsets [false, true] ((allIdx [(polarGrid .complex N P p).length, Ng]).map
        (gridGroups (wave .complex N) (polarGrid .complex N P p)))).mapM (entry false (lowGroup (fun m => (nmin disk m).toNat) (wave .complex N))
          (wave .complex N) Dtype.complex.parts (polarCoeff .complex N P p) (polarGrid .complex N P p) Nr Ng)) = some maps ∧
      Radial (wave .complex N) (fun r => perm .complex N r % Dtype.complex.parts) Dtype.complex.parts (polarGrid .complex N P p)
        (fun m => (nmin disk m).toNat) Nr (2 * (Nr - 1)) maps := by
      intro N v hp hv
      have hr := radial_low hp (fun r => perm .complex N r % 1) (fun r hr => by rw [Nat.mod_one, Nat.mod_one])
        (fun m => (nmin disk m).toNat) Nr Ng (2 * (Nr - 1)) P p hg (fun k hk => hnm _ (hv k hk))
      rw [Nat.one_mul] at hr
      exact ⟨rfl, hr⟩
    rcases h with ⟨-, rfl⟩ | ⟨h0, ⟨M, rfl⟩⟩
    · exact key 1 _ (rows_small 1 (Or.inl rfl)) (fun k hk _ => by simp; omega)
    · simp only [Dtype.parts] at h0 hd ⊢
      by_cases hM : M = 1
      · subst hM
        exact key 2 _ (rows_small 2 (Or.inr rfl)) (fun k hk hdisk => by have := hd hdisk; simp; omega)
      · have := key (2 * M) _ (rows_complex M (by omega)) (fun k hk hdisk => by
          have := hd hdisk
          unfold vComplex oComplex
          split
          · omega
          · split <;> omega)
        rw [show 2 * 1 * M = 2 * M by ring]
        exact this

example : PolarAllowed true .real 16 4 ∧ polarMaps true .real 16 4 6 2 1 = some [⟨2, (0, 2), (0, 2), (1, 4), false⟩, ⟨5, (2, 4), (2, 4), (2, 4), false⟩,
    ⟨3, (4, 6), (4, 6), (1, 4), false⟩, ⟨4, (6, 8), (6, 8), (2, 4), false⟩] := by
  refine ⟨⟨by decide, Or.inr ⟨by decide, by decide⟩, fun _ => by decide⟩, by decide +kernel⟩

/-- Real axisymmetric disks and annuli: the process that has the one grid row also has the cosine and sine coefficients and pairs them, all
others have nothing. -/
theorem polar_axisymmetric (disk : Bool) (Nr Ng P p : Nat) (hN : 0 < Nr) (hg : 0 < Ng) (hP : 0 < P) :
    if p = 0 ∨ P = 1 then polarGrid .real 1 P p = [0] ∧ polarCoeff .real 1 P p = [0, 1] ∧
      polarMaps disk .real 1 Nr Ng P p = some [⟨0, (0, 2), (0, 2), (0, Nr), false⟩]
    else polarGrid .real 1 P p = [] ∧ polarCoeff .real 1 P p = [] ∧ polarMaps disk .real 1 Nr Ng P p = some [] := by
  have e1 : polarGrid .real 1 P p = List.range' (lo P 1 p) (hi P 1 p - lo P 1 p) := by
    have := rows_eq P 1 1 p (by omega)
    simp only [Nat.one_mul] at this
    exact this
  have e2 : polarCoeff .real 1 P p = List.range' (2 * lo P 1 p) (2 * (hi P 1 p - lo P 1 p)) := rows_eq P 2 1 p (by omega)
  have hc : P ≠ 1 → ceilDiv 1 P = 1 := by
    intro h
    unfold ceilDiv
    rw [show 1 + P - 1 = P by omega, Nat.div_self hP]
  split
  · rename_i h
    have hlo : lo P 1 p = 0 := by
      unfold lo; split
      · rfl
      · rename_i hP1; rw [hc hP1]; omega
    have hhi : hi P 1 p = 1 := by
      unfold hi; split
      · rfl
      · rename_i hP1; rw [hc hP1]; omega
    rw [hlo, hhi] at e1 e2
    have e1' : polarGrid .real 1 P p = [0] := e1
    have e2' : polarCoeff .real 1 P p = [0, 1] := e2
    refine ⟨e1', e2', ?_⟩
    unfold polarMaps
    simp only
    rw [e1', e2', polarGroup_eq]
    have hgs : localGroupsets [false, true] ((allIdx [[0].length, Ng]).map (gridGroups (wave .real 1) [0])) = [[some 0, none]] := by
      have hmem := mem_groupsets (gridGroups (wave .real 1) [0]) 1 Ng (fun _ _ => some 0) (by
        intro i j hi hj
        have : i = 0 := by omega
        subst this
        exact ⟨some (j : Int), rfl⟩)
      have hn : (localGroupsets [false, true] ((allIdx [1, Ng]).map (gridGroups (wave .real 1) [0]))).Nodup := nodup_addAll List.nodup_nil
      show localGroupsets [false, true] ((allIdx [1, Ng]).map (gridGroups (wave .real 1) [0])) = _
      generalize localGroupsets [false, true] ((allIdx [1, Ng]).map (gridGroups (wave .real 1) [0])) = l at hmem hn
      have hall : ∀ x ∈ l, x = [some 0, none] := by
        intro x hx
        obtain ⟨i, j, m, -, -, h1, rfl⟩ := (hmem x).1 hx
        simp at h1; rw [← h1]
      match l, hn, hall, hmem with
      | [], _, _, hmem => exact absurd ((hmem _).2 ⟨0, 0, 0, by omega, hg, rfl, rfl⟩) (by simp)
      | [x], _, hall, _ => rw [hall x (by simp)]
      | x :: y :: l, hn, hall, _ =>
        rw [hall x (by simp), hall y (by simp)] at hn
        simp at hn
    rw [hgs]
    have hent : entry false (lowGroup (fun m => (nmin disk m).toNat) (wave .real 1)) (wave .real 1) Dtype.real.parts [0, 1] [0] Nr Ng [some 0, none]
        = some ⟨0, (0, 2), (0, 2), (0, Nr), false⟩ := by
      rw [entry_eq false _ _ _ _ _ _ _ _ (2 * 0, 2 * 0 + 2) (0, Nr) (2 * 0, 2 * 0 + 2) (0, Ng)]
      · rfl
      · refine slices_one _ _ _ _ _ 0 _ _ (by decide) (by decide) hN le_rfl ?_
        intro i j hi hj
        have hi2 : i = 0 ∨ i = 1 := by simp at hi; omega
        have hw : wave .real 1 i = 0 := by rcases hi2 with rfl | rfl <;> rfl
        have hg0 : ([0, 1] : List Nat)[i]? = some i := by rcases hi2 with rfl | rfl <;> rfl
        rw [coeff_selected _ _ i j i _ hg0]
        unfold lowGroup
        rw [hw]
        dsimp only
        have : (nmin disk 0).toNat = 0 := by cases disk <;> rfl
        rw [if_neg (by rw [this]; omega)]
        have hp2 : Dtype.real.parts = 2 := rfl
        rw [hp2]
        simp [hj]
        omega
      · refine slices_one _ _ _ _ _ 0 _ _ (by decide) (by decide) hg le_rfl ?_
        intro i j hi hj
        have hi2 : i = 0 := by simp at hi; omega
        subst hi2
        rw [grid_selected _ _ 0 j 0 _ rfl]
        simp [hj]
        exact ⟨fun _ => by decide, fun _ => rfl⟩
    simp [List.mapM_cons, hent]
  · rename_i h
    have hP1 : P ≠ 1 := fun h' => h (Or.inr h')
    have hp0 : p ≠ 0 := fun h' => h (Or.inl h')
    have hlo : lo P 1 p = 1 := by unfold lo; rw [if_neg hP1, hc hP1]; omega
    have hhi := hi_le P 1 p
    have e1' : polarGrid .real 1 P p = [] := by rw [e1, show hi P 1 p - lo P 1 p = 0 by omega]; rfl
    have e2' : polarCoeff .real 1 P p = [] := by rw [e2, show hi P 1 p - lo P 1 p = 0 by omega]; rfl
    refine ⟨e1', e2', ?_⟩
    unfold polarMaps
    simp only
    rw [e1']
    rfl

theorem mapM_none {α β : Type} (f : α → Option β) : ∀ (l : List α) (x : α), x ∈ l → f x = none → l.mapM f = none
  | y :: l, x, hx, h => by
    rw [List.mapM_cons]
    rcases List.mem_cons.1 hx with rfl | hx
    · rw [h]; rfl
    · rw [mapM_none f l x hx h]
      cases f y <;> rfl

/-- C93 is false of the code: a complex disk with `Nphi = 4 Nr` points is accepted, but its highest order has no radial mode and building
the map raises the error that "should never happen". -/
theorem polar_no_modes_refuted (Nr Ng : Nat) (hN : 0 < Nr) (hg : 0 < Ng) : polarMaps true .complex (4 * Nr) Nr Ng 1 0 = none := by
  unfold polarMaps
  simp only [polarGroup_eq]
  have hp := rows_complex (2 * Nr) (by omega)
  rw [show 2 * (2 * Nr) = 4 * Nr by ring] at hp
  have e1 : polarGrid .complex (4 * Nr) 1 0 = List.range' (1 * 0) (1 * (4 * Nr - 0)) := by
    have := rows_eq 1 1 (4 * Nr) 0 (by omega)
    rw [Nat.one_mul] at this
    exact this
  have e2 : polarCoeff .complex (4 * Nr) 1 0 = List.range' (1 * 0) (1 * (4 * Nr - 0)) := e1
  rw [e1, e2]
  have hv : vComplex (2 * Nr) 1 = ((2 * Nr : Nat) : Int) := by simp [vComplex, oComplex]
  have hmem := (mem_gridsets hp 0 (4 * Nr) Ng le_rfl hg [some ((2 * Nr : Nat) : Int), none]).2 ⟨1, by omega, by omega, by rw [hv]⟩
  rw [List.length_range']
  refine mapM_none _ _ _ hmem ?_
  unfold entry
  rw [slices_none]
  intro i j hi hj
  rw [List.length_range'] at hi
  rw [Bool.eq_false_iff]
  intro hsel
  rw [coeff_selected _ _ i j (1 * 0 + i) _ ((range'_get _ _ _ _).2 ⟨hi, rfl⟩)] at hsel
  unfold lowGroup at hsel
  split at hsel
  · simp at hsel
  · rename_i hlt
    simp only [Option.map_some, Option.some.injEq] at hsel
    rw [hsel] at hlt
    unfold nmin at hlt
    simp only [if_true] at hlt
    rw [abs_of_nonneg (by omega)] at hlt
    omega

/-- Two points in azimuth on two processes: process 1 has a grid row but no coefficients and raises the same error. -/
theorem polar_two_points_refuted (disk : Bool) (Nr Ng : Nat) (hg : 0 < Ng) : polarMaps disk .real 2 Nr Ng 2 1 = none := by
  have e1 : polarGrid .real 2 2 1 = [1] := by decide
  have e2 : polarCoeff .real 2 2 1 = [] := by decide
  unfold polarMaps
  simp only
  rw [e1, e2]
  refine mapM_none _ _ [some 0, none] ?_ ?_
  · exact (mem_groupsets (gridGroups (wave .real 2) [1]) 1 Ng (fun _ _ => some 0) (by
        intro i j hi hj
        have : i = 0 := by omega
        subst this
        exact ⟨some (j : Int), rfl⟩) _).2 ⟨0, 0, 0, by omega, hg, rfl, rfl⟩
  · unfold entry
    rw [slices_none]
    intro i j hi
    simp at hi

/-- A real disk with `Nphi = 4 Nr` points has a coefficient for order `2 Nr - 1` and radial mode `Nr - 1`, but the transform to the grid
drops it, whatever the coefficients and matrices. -/
theorem disk_top_order_refuted (Nr Ng : Nat) (hN : 0 < Nr) (hg : 0 < Ng) :
    ∃ maps i r, polarMaps true .real (4 * Nr) Nr Ng 1 0 = some maps ∧ (polarGrid .real (4 * Nr) 1 0)[i]? = some r ∧
      polarGroup true .real (4 * Nr) r (Nr - 1) = some (2 * (Nr : Int) - 1, (Nr : Int) - 1) ∧
      ∀ (V : Type) [Zero V] (S : Int → List V → Nat → V) (c : Nat → Nat → V) x, backward maps (2 * (Nr - 1)) S c i x = 0 := by
  have ha : PolarAllowed true .real (4 * Nr) Nr := ⟨hN, Or.inr ⟨by omega, ⟨Nr, rfl⟩⟩, fun _ => le_rfl⟩
  obtain ⟨-, maps, hm, hr⟩ := polar_order_maps_partial true .real (4 * Nr) Nr Ng 1 0 ha hg
  have hw : wave .real (4 * Nr) 2 = 2 * (Nr : Int) - 1 := by
    rw [wave_real Nr 2 hN (by omega)]
    simp [oReal]
  have e1 : (polarGrid .real (4 * Nr) 1 0)[2]? = some 2 := by
    have e : polarGrid .real (4 * Nr) 1 0 = List.range' (2 * 0) (2 * (2 * Nr - 0)) := by
      have := rows_eq 1 2 (2 * Nr) 0 (by omega)
      rw [show 2 * (2 * Nr) = 4 * Nr by ring] at this
      unfold polarGrid polarGridChunk
      simp only [if_neg (show ¬mmax (4 * Nr) = 0 by unfold mmax; omega)]
      exact this
    rw [e, range'_get]
    omega
  refine ⟨maps, 2, 2, hm, e1, ?_, ?_⟩
  · unfold polarGroup
    rw [hw]
    unfold nmin
    simp only [if_true]
    rw [abs_of_nonneg (by omega), if_neg (by omega)]
    congr 2
    omega
  · intro V _ S c x
    rw [hr.backward V S c 2 2 x e1, if_neg]
    rw [hw, abs_of_nonneg (by omega)]
    omega

end Dedalus.Orders
