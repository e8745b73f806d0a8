import Verif.Ball.Model
import Verif.Regularity.Gradient
import Verif.Zernike.Calculus

/-!
# Differential operators on tensors for any radial basis with ladder matrices
-/

namespace Dedalus.Ball

open Regularity
open Regularity.Spec hiding Allowed
open Zernike (apply)

theorem allowed_iff (ell : Nat) (reg : List Int) (hu : Unit3 reg) : allowed ell reg = true ↔ Allowed ell reg := by
  unfold allowed
  split
  · rename_i h; subst h; exact ⟨fun _ => allowed_nil ell, fun _ => rfl⟩
  · rw [← forbidden_iff ell reg hu]; simp

theorem xi_J (mu : Int) (ell : Nat) (s : Int) : xi mu (ell + s) = xiJ mu (ell + (s : ℝ)) := by
  unfold xi xiJ; push_cast; rfl

theorem spin_mix (ell rank : Nat) (u : List Int → ℂ) (τ : List Int) : spinComponent ell rank u τ = mix ell rank u τ := rfl

theorem mix_congr (ell rank : Nat) (u v : List Int → ℂ) (τ : List Int) (hτ : τ.length = rank) (h : ∀ b ∈ T rank, Allowed ell b → u b = v b) : mix ell rank u τ = mix ell rank v τ := by
  apply Finset.sum_congr rfl
  intro b hb
  obtain ⟨hl, hu⟩ := (mem_T rank b).1 hb
  by_cases hA : Allowed ell b
  · rw [h b hb hA]
  · rw [inter_tail ell b hu hA τ (by omega)]; simp

theorem mix_hasDeriv (ell rank : Nat) (u : List Int → ℝ → ℂ) (u' : List Int → ℂ) (r : ℝ) (h : ∀ b, HasDerivAt (u b) (u' b) r) (τ : List Int) :
    HasDerivAt (fun x => mix ell rank (fun b => u b x) τ) (mix ell rank u' τ) r := by
  unfold mix
  have := HasDerivAt.sum (u := T rank) (A := fun b x => (intertwiner ell b τ : ℂ) * u b x) (A' := fun b => (intertwiner ell b τ : ℂ) * u' b) (x := r)
    (fun b _ => (h b).const_mul _)
  refine this.congr_of_eventuallyEq (Filter.Eventually.of_forall fun x => ?_)
  simp

theorem operate_sum (N ell : Nat) (terms : List Int → Terms) (rank : Nat) (c : List Int → Nat → ℂ) (out : List Int) (i : Nat) :
    operate N ell terms rank c out i = ∑ reg ∈ T rank, ((terms reg).map fun t =>
      if t.1 = out then (if allowed ell reg ∧ allowed ell t.1 then ∑ j ∈ Finset.range N, t.2 i j * c reg j else 0) else 0).sum := rfl

/-! ## Outputs -/

theorem smul_apply (N : Nat) (A : Nat → Nat → ℝ) (x : ℂ) (c : Nat → ℂ) (i : Nat) : ∑ j ∈ Finset.range N, (x * (A i j : ℂ)) * c j = x * apply N A c i := by
  unfold Zernike.apply
  rw [Finset.mul_sum]
  exact Finset.sum_congr rfl fun j _ => by ring

theorem gradient_out (N ell : Nat) (Dm Dp : Int → Nat → Nat → ℝ) (rank : Nat) (c : List Int → Nat → ℂ) (b : List Int) (hb : b ∈ T rank) (i : Nat) :
    (Allowed ell (-1 :: b) → operate N ell (gradientTerms ell Dm Dp) rank c (-1 :: b) i = (xi (-1) (ell + b.sum) : ℂ) * apply N (Dm b.sum) (c b) i) ∧
    (Allowed ell (1 :: b) → operate N ell (gradientTerms ell Dm Dp) rank c (1 :: b) i = (xi 1 (ell + b.sum) : ℂ) * apply N (Dp b.sum) (c b) i) ∧
    operate N ell (gradientTerms ell Dm Dp) rank c (0 :: b) i = 0 := by
  obtain ⟨hl, hu⟩ := (mem_T rank b).1 hb
  simp only [operate_sum, gradientTerms, List.map_cons, List.map_nil, List.sum_cons, List.sum_nil, add_zero, List.cons.injEq]
  refine ⟨fun h => ?_, fun h => ?_, ?_⟩
  · have h1 := (allowed_iff ell _ (hu.cons (s := -1) (by simp))).2 h
    have h2 := (allowed_iff ell _ hu).2 ((allowed_cons ell _ b).1 h).1
    rw [Finset.sum_eq_single b]
    · simp only [true_and, if_true, h1, h2, and_self]
      rw [smul_apply]
      norm_num
    · intro b' _ hne
      simp [hne]
    · intro h; exact absurd hb h
  · have h1 := (allowed_iff ell _ (hu.cons (s := 1) (by simp))).2 h
    have h2 := (allowed_iff ell _ hu).2 ((allowed_cons ell _ b).1 h).1
    rw [Finset.sum_eq_single b]
    · simp only [true_and, and_true, if_true, h1, h2, and_self, if_neg (show ¬(-1 : Int) = 1 by omega), zero_add]
      rw [smul_apply]
    · intro b' _ hne
      simp [hne]
    · intro h; exact absurd hb h
  · apply Finset.sum_eq_zero
    intro b' _
    norm_num

theorem divergence_out (N ell : Nat) (Dm Dp : Int → Nat → Nat → ℝ) (rank : Nat) (c : List Int → Nat → ℂ) (b : List Int) (hb : b ∈ T rank) (h : Allowed ell b) (i : Nat) :
    operate N ell (divergenceTerms ell Dm Dp) (rank + 1) c b i =
      (if Allowed ell (-1 :: b) then (xi (-1) (ell + b.sum) : ℂ) * apply N (Dp (b.sum - 1)) (c (-1 :: b)) i else 0) +
      (xi 1 (ell + b.sum) : ℂ) * apply N (Dm (b.sum + 1)) (c (1 :: b)) i := by
  obtain ⟨hl, hu⟩ := (mem_T rank b).1 hb
  rw [operate_sum, ← tot_sum, tot_succ, tot_sum, tot_sum, tot_sum]
  have hb2 := (allowed_iff ell _ hu).2 h
  have hp2 := (allowed_iff ell _ (hu.cons (s := 1) (by simp))).2 (allowed_plus ell b h)
  have e1 : ∑ τ ∈ T rank, ((divergenceTerms ell Dm Dp (-1 :: τ)).map fun t =>
      if t.1 = b then (if allowed ell (-1 :: τ) ∧ allowed ell t.1 then ∑ j ∈ Finset.range N, t.2 i j * c (-1 :: τ) j else 0) else 0).sum =
      if Allowed ell (-1 :: b) then (xi (-1) (ell + b.sum) : ℂ) * apply N (Dp (b.sum - 1)) (c (-1 :: b)) i else 0 := by
    simp only [divergenceTerms, if_true, List.map_cons, List.map_nil, List.sum_cons, List.sum_nil, add_zero]
    rw [Finset.sum_eq_single b]
    · simp only [if_true, hb2, and_true]
      simp only [allowed_iff ell _ (hu.cons (s := -1) (by simp))]
      split_ifs
      · rw [smul_apply, show (ell : Int) + (-1 + b.sum) + 1 = ell + b.sum by ring, show -1 + b.sum = b.sum - 1 by ring]
      · rfl
    · intro b' _ hne; simp [hne]
    · intro h; exact absurd hb h
  have e2 : ∑ τ ∈ T rank, ((divergenceTerms ell Dm Dp (0 :: τ)).map fun t =>
      if t.1 = b then (if allowed ell (0 :: τ) ∧ allowed ell t.1 then ∑ j ∈ Finset.range N, t.2 i j * c (0 :: τ) j else 0) else 0).sum = 0 := by
    apply Finset.sum_eq_zero
    intro b' _
    simp [divergenceTerms]
  have e3 : ∑ τ ∈ T rank, ((divergenceTerms ell Dm Dp (1 :: τ)).map fun t =>
      if t.1 = b then (if allowed ell (1 :: τ) ∧ allowed ell t.1 then ∑ j ∈ Finset.range N, t.2 i j * c (1 :: τ) j else 0) else 0).sum =
      (xi 1 (ell + b.sum) : ℂ) * apply N (Dm (b.sum + 1)) (c (1 :: b)) i := by
    simp only [divergenceTerms, if_neg (show ¬(1 : Int) = -1 by omega), if_true, List.map_cons, List.map_nil, List.sum_cons, List.sum_nil, add_zero]
    rw [Finset.sum_eq_single b]
    · simp only [if_true, hb2, hp2, and_self]
      rw [smul_apply, show (ell : Int) + (1 + b.sum) - 1 = ell + b.sum by ring, show 1 + b.sum = b.sum + 1 by ring]
    · intro b' _ hne; simp [hne]
    · intro h; exact absurd hb h
  rw [e1, e2, e3, add_zero]

theorem curl_out (N ell : Nat) (Dm Dp : Int → Nat → Nat → ℝ) (rank : Nat) (c : List Int → Nat → ℂ) (b : List Int) (hb : b ∈ T rank) (i : Nat) :
    (Allowed ell (0 :: b) → operate N ell (curlTerms ell Dm Dp) (rank + 1) c (0 :: b) i =
      -Complex.I * (xi 1 (ell + b.sum) : ℂ) * apply N (Dp (b.sum - 1)) (c (-1 :: b)) i + Complex.I * (xi (-1) (ell + b.sum) : ℂ) * apply N (Dm (b.sum + 1)) (c (1 :: b)) i) ∧
    (Allowed ell (-1 :: b) → operate N ell (curlTerms ell Dm Dp) (rank + 1) c (-1 :: b) i = -Complex.I * (xi 1 (ell + b.sum) : ℂ) * apply N (Dm b.sum) (c (0 :: b)) i) ∧
    (Allowed ell (1 :: b) → operate N ell (curlTerms ell Dm Dp) (rank + 1) c (1 :: b) i = Complex.I * (xi (-1) (ell + b.sum) : ℂ) * apply N (Dp b.sum) (c (0 :: b)) i) := by
  obtain ⟨hl, hu⟩ := (mem_T rank b).1 hb
  have um : Unit3 (-1 :: b) := hu.cons (by simp)
  have u0 : Unit3 (0 :: b) := hu.cons (by simp)
  have up : Unit3 (1 :: b) := hu.cons (by simp)
  have n1 : ¬(1 : Int) = -1 := by omega
  have n2 : ¬(0 : Int) = -1 := by omega
  have n3 : ¬(0 : Int) = 1 := by omega
  have n4 : ¬(-1 : Int) = 0 := by omega
  have n5 : ¬(1 : Int) = 0 := by omega
  have n6 : ¬(-1 : Int) = 1 := by omega
  refine ⟨fun h => ?_, fun h => ?_, fun h => ?_⟩
  · have hbA := ((allowed_cons ell _ b).1 h).1
    have hpos := (allowed_zero ell b hbA).1 h
    have a0 := (allowed_iff ell _ u0).2 h
    have am := (allowed_iff ell _ um).2 ((allowed_minus ell b hbA).2 hpos)
    have ap := (allowed_iff ell _ up).2 (allowed_plus ell b hbA)
    rw [operate_sum, ← tot_sum, tot_succ, tot_sum, tot_sum, tot_sum]
    have e1 : ∑ τ ∈ T rank, ((curlTerms ell Dm Dp (-1 :: τ)).map fun t =>
        if t.1 = 0 :: b then (if allowed ell (-1 :: τ) ∧ allowed ell t.1 then ∑ j ∈ Finset.range N, t.2 i j * c (-1 :: τ) j else 0) else 0).sum =
        -Complex.I * (xi 1 (ell + b.sum) : ℂ) * apply N (Dp (b.sum - 1)) (c (-1 :: b)) i := by
      simp only [curlTerms, if_true, List.map_cons, List.map_nil, List.sum_cons, List.sum_nil, add_zero, List.cons.injEq, true_and]
      rw [Finset.sum_eq_single b]
      · simp only [if_true, a0, am, and_self]
        rw [smul_apply, show (ell : Int) + (-1 + b.sum) + 1 = ell + b.sum by ring, show -1 + b.sum = b.sum - 1 by ring]
      · intro b' _ hne; simp [hne]
      · intro h; exact absurd hb h
    have e2 : ∑ τ ∈ T rank, ((curlTerms ell Dm Dp (0 :: τ)).map fun t =>
        if t.1 = 0 :: b then (if allowed ell (0 :: τ) ∧ allowed ell t.1 then ∑ j ∈ Finset.range N, t.2 i j * c (0 :: τ) j else 0) else 0).sum = 0 := by
      apply Finset.sum_eq_zero
      intro b' _
      simp [curlTerms]
    have e3 : ∑ τ ∈ T rank, ((curlTerms ell Dm Dp (1 :: τ)).map fun t =>
        if t.1 = 0 :: b then (if allowed ell (1 :: τ) ∧ allowed ell t.1 then ∑ j ∈ Finset.range N, t.2 i j * c (1 :: τ) j else 0) else 0).sum =
        Complex.I * (xi (-1) (ell + b.sum) : ℂ) * apply N (Dm (b.sum + 1)) (c (1 :: b)) i := by
      simp only [curlTerms, if_neg n1, if_true, List.map_cons, List.map_nil, List.sum_cons, List.sum_nil, add_zero, List.cons.injEq, true_and]
      rw [Finset.sum_eq_single b]
      · simp only [if_true, a0, ap, and_self]
        rw [smul_apply, show (ell : Int) + (1 + b.sum) - 1 = ell + b.sum by ring, show 1 + b.sum = b.sum + 1 by ring]
      · intro b' _ hne; simp [hne]
      · intro h; exact absurd hb h
    rw [e1, e2, e3, add_zero]
  · have hbA := ((allowed_cons ell _ b).1 h).1
    have hpos := (allowed_minus ell b hbA).1 h
    have am := (allowed_iff ell _ um).2 h
    have a0 := (allowed_iff ell _ u0).2 ((allowed_zero ell b hbA).2 hpos)
    rw [operate_sum, ← tot_sum, tot_succ, tot_sum, tot_sum, tot_sum]
    simp only [curlTerms, if_true, if_neg n1, if_neg n2, if_neg n3, List.map_cons, List.map_nil, List.sum_cons, List.sum_nil, add_zero, List.cons.injEq, n3, n1, false_and, if_false, n2,
      Finset.sum_const_zero, zero_add, true_and]
    rw [Finset.sum_eq_single b]
    · simp only [if_true, a0, am, and_self]
      rw [smul_apply]
    · intro b' _ hne; simp [hne]
    · intro h; exact absurd hb h
  · have hbA := ((allowed_cons ell _ b).1 h).1
    have ap := (allowed_iff ell _ up).2 h
    rw [operate_sum, ← tot_sum, tot_succ, tot_sum, tot_sum, tot_sum]
    simp only [curlTerms, if_true, if_neg n1, if_neg n2, if_neg n3, List.map_cons, List.map_nil, List.sum_cons, List.sum_nil, add_zero, List.cons.injEq, n3, n1, n6, false_and, if_false, n2,
      Finset.sum_const_zero, zero_add, true_and]
    rw [Finset.sum_eq_single b]
    · by_cases ha : Allowed ell (0 :: b)
      · have a0 := (allowed_iff ell _ u0).2 ha
        simp only [if_true, a0, ap, and_self]
        rw [smul_apply]
      · have a0 : ¬(allowed ell (0 :: b) = true) := fun hh => ha ((allowed_iff ell _ u0).1 hh)
        have hz : (ell : ℝ) + (b.sum : Int) = 0 := by
          by_contra hne
          exact ha ((allowed_zero ell b hbA).2 (lt_of_le_of_ne (J_nonneg ell b hbA) (Ne.symm hne)))
        have : xi (-1) (ell + b.sum) = 0 := by rw [xi_J, hz, xi_minus]; simp
        rw [this]
        simp [a0]
    · intro b' _ hne; simp [hne]
    · intro h; exact absurd hb h

theorem diagonal_out (N ell : Nat) (A : Int → Nat → Nat → ℝ) (rank : Nat) (c : List Int → Nat → ℂ) (b : List Int) (hb : b ∈ T rank) (h : Allowed ell b) (i : Nat) :
    operate N ell (diagonalTerms A) rank c b i = apply N (A b.sum) (c b) i := by
  obtain ⟨hl, hu⟩ := (mem_T rank b).1 hb
  have h1 := (allowed_iff ell _ hu).2 h
  simp only [operate_sum, diagonalTerms, List.map_cons, List.map_nil, List.sum_cons, List.sum_nil, add_zero]
  rw [Finset.sum_eq_single b]
  · simp only [if_true, h1, and_self]; rfl
  · intro b' _ hne; simp [hne]
  · intro h; exact absurd hb h

/-! ## Ladder matrices -/

/-- The matrices are ladder operators at `r` from the functions `R0` to the functions `R1`. -/
structure Ladder (N ell : Nat) (Dm Dp : Int → Nat → Nat → ℝ) (R0 R1 : Int → (Nat → ℂ) → ℝ → ℂ) (r : ℝ) : Prop where
  lin : ∀ deg (x y : ℂ) c d, R1 deg (fun n => x * c n + y * d n) r = x * R1 deg c r + y * R1 deg d r
  cong : ∀ deg c d, (∀ n, n < N → c n = d n) → R1 deg c r = R1 deg d r
  diff : ∀ deg c, ∃ f', HasDerivAt (R0 deg c) f' r
  plus : ∀ deg : Int, 0 ≤ ell + deg → ∀ c, HasDerivAt (R0 deg c) (((ell + deg : ℝ) : ℂ) / r * R0 deg c r + R1 (deg + 1) (apply N (Dp deg) c) r) r
  minus : ∀ deg : Int, 0 < ell + deg → ∀ c, HasDerivAt (R0 deg c) (-((ell + deg + 1 : ℝ) : ℂ) / r * R0 deg c r + R1 (deg - 1) (apply N (Dm deg) c) r) r

/-- the spin components of a field -/
noncomputable def comps (ell rank : Nat) (R : Int → (Nat → ℂ) → ℝ → ℂ) (c : List Int → Nat → ℂ) (τ : List Int) (x : ℝ) : ℂ :=
  spinComponent ell rank (fun reg => R reg.sum (c reg) x) τ

variable {N ell : Nat} {Dm Dp : Int → Nat → Nat → ℝ} {R0 R1 : Int → (Nat → ℂ) → ℝ → ℂ} {r : ℝ}

theorem Ladder.one (L : Ladder N ell Dm Dp R0 R1 r) (deg : Int) (x : ℂ) (c : Nat → ℂ) : R1 deg (fun n => x * c n) r = x * R1 deg c r := by
  have := L.lin deg x 0 c c
  simpa using this

theorem Ladder.zero (L : Ladder N ell Dm Dp R0 R1 r) (deg : Int) : R1 deg (fun _ => 0) r = 0 := by
  have := L.one deg 0 (fun _ => 0)
  simpa using this

/-- derivatives of all components -/
noncomputable def Ladder.d (L : Ladder N ell Dm Dp R0 R1 r) (c : List Int → Nat → ℂ) (b : List Int) : ℂ := (L.diff b.sum (c b)).choose

theorem Ladder.d_spec (L : Ladder N ell Dm Dp R0 R1 r) (c : List Int → Nat → ℂ) (b : List Int) : HasDerivAt (R0 b.sum (c b)) (L.d c b) r := (L.diff b.sum (c b)).choose_spec

theorem Ladder.up (L : Ladder N ell Dm Dp R0 R1 r) (c : List Int → Nat → ℂ) (b : List Int) (h : 0 ≤ (ell : Int) + b.sum) :
    R1 (b.sum + 1) (apply N (Dp b.sum) (c b)) r = L.d c b - ((ell + (b.sum : Int) : ℝ) : ℂ) / r * R0 b.sum (c b) r := by
  have := (L.d_spec c b).unique (L.plus b.sum h (c b))
  rw [this]; ring

theorem Ladder.down (L : Ladder N ell Dm Dp R0 R1 r) (c : List Int → Nat → ℂ) (b : List Int) (h : 0 < (ell : Int) + b.sum) :
    R1 (b.sum - 1) (apply N (Dm b.sum) (c b)) r = L.d c b + ((ell + (b.sum : Int) + 1 : ℝ) : ℂ) / r * R0 b.sum (c b) r := by
  have := (L.d_spec c b).unique (L.minus b.sum h (c b))
  rw [this]; ring

theorem Ladder.gradient (L : Ladder N ell Dm Dp R0 R1 r) (hr : r ≠ 0) (rank : Nat) (c : List Int → Nat → ℂ) :
    IsGradient ell rank (comps ell rank R0 c) (fun τ => comps ell (rank + 1) R1 (operate N ell (gradientTerms ell Dm Dp) rank c) τ r) r := by
  refine ⟨fun τ => mix ell rank (L.d c) τ, fun τ _ => mix_hasDeriv ell rank (fun b x => R0 b.sum (c b) x) (L.d c) r (fun b => L.d_spec c b) τ, ?_⟩
  rintro σ τ ⟨hl, hu⟩
  have hl' : τ.length = rank := by simpa using hl
  refine gradient_of ell rank (fun b => R0 b.sum (c b) r) (L.d c) _ r hr ?_ ?_ ?_ σ τ hu hl'
  · intro b hb h
    have hbA := ((allowed_cons ell _ b).1 h).1
    have hpos : 0 < (ell : Int) + b.sum := by exact_mod_cast (allowed_minus ell b hbA).1 h
    rw [L.cong _ _ _ fun n _ => (gradient_out N ell Dm Dp rank c b hb n).1 h, L.one, List.sum_cons, show -1 + b.sum = b.sum - 1 by ring, L.down c b hpos, xi_J]
  · intro b hb h
    have hbA := ((allowed_cons ell _ b).1 h).1
    rw [L.cong _ _ _ fun n _ => (gradient_out N ell Dm Dp rank c b hb n).2.1 h, L.one, List.sum_cons, show 1 + b.sum = b.sum + 1 by ring, L.up c b (allowed_sum ell b hbA), xi_J]
  · intro b hb h
    rw [L.cong _ _ _ fun n _ => (gradient_out N ell Dm Dp rank c b hb n).2.2, L.zero]

theorem Ladder.isGradient (L : Ladder N ell Dm Dp R0 R1 r) (rank : Nat) (c : List Int → Nat → ℂ) :
    IsGradient ell rank (comps ell rank R0 c) (fun t => match t with
      | [] => 0
      | σ :: τ => Regularity.Spec.gradient ell (mix ell rank fun b => R0 b.sum (c b) r) (mix ell rank (L.d c)) r σ τ) r :=
  ⟨fun τ => mix ell rank (L.d c) τ, fun τ _ => mix_hasDeriv ell rank (fun b x => R0 b.sum (c b) x) (L.d c) r (fun b => L.d_spec c b) τ, fun _ _ _ => rfl⟩

theorem Ladder.divergence (L : Ladder N ell Dm Dp R0 R1 r) (rank : Nat) (c : List Int → Nat → ℂ) :
    IsDivergence ell rank (comps ell (rank + 1) R0 c) (fun τ => comps ell rank R1 (operate N ell (divergenceTerms ell Dm Dp) (rank + 1) c) τ r) r := by
  refine ⟨_, L.isGradient (rank + 1) c, ?_⟩
  rintro τ ⟨hl, hu⟩
  refine divergence_of ell rank (fun b => R0 b.sum (c b) r) (L.d c) _ r ?_ τ hu hl
  intro b hb h
  have hJ := allowed_sum ell b h
  rw [L.cong _ _ _ fun n _ => divergence_out N ell Dm Dp rank c b hb h n]
  have up := L.up c (-1 :: b)
  have down := L.down c (1 :: b)
  rw [List.sum_cons] at up down
  rw [show -1 + b.sum = b.sum - 1 by ring, show b.sum - 1 + 1 = b.sum by ring] at up
  rw [show 1 + b.sum = b.sum + 1 by ring, show b.sum + 1 - 1 = b.sum by ring] at down
  have hs : ∀ x : Int, (x :: b).sum = b.sum + x := fun x => by rw [List.sum_cons, add_comm]
  by_cases ham : Allowed ell (-1 :: b)
  · have hpos : 0 < (ell : Int) + b.sum := by exact_mod_cast (allowed_minus ell b h).1 ham
    simp only [if_pos ham]
    rw [L.lin, up (by omega), down (by omega), xi_J, xi_J, hs, hs, show b.sum + -1 = b.sum - 1 by ring]
    push_cast
    ring
  · simp only [if_neg ham, zero_add]
    rw [L.one, down (by omega), xi_J, hs]
    push_cast
    ring

theorem Ladder.curl (L : Ladder N ell Dm Dp R0 R1 r) (hr : r ≠ 0) (rank : Nat) (c : List Int → Nat → ℂ) :
    IsCurl ell rank (comps ell (rank + 1) R0 c) (fun τ => comps ell (rank + 1) R1 (operate N ell (curlTerms ell Dm Dp) (rank + 1) c) τ r) r := by
  refine ⟨_, L.isGradient (rank + 1) c, ?_⟩
  rintro τ ⟨hl, hu⟩
  have hs : ∀ (x : Int) (b : List Int), (x :: b).sum = b.sum + x := fun x b => by rw [List.sum_cons, add_comm]
  have hc := curl_of ell rank (fun b => R0 b.sum (c b) r) (L.d c)
    (fun b => R1 b.sum (operate N ell (curlTerms ell Dm Dp) (rank + 1) c b) r) r hr ?_ ?_ ?_ τ hu hl
  · refine ⟨hc.1, ?_, ?_⟩
    · have := hc.2 1 (Or.inl rfl)
      rw [Int.cast_one, one_mul] at this
      exact this
    · have := hc.2 (-1) (Or.inr rfl)
      rw [Int.cast_neg, Int.cast_one, neg_one_mul] at this
      exact this
  · intro b hb h
    have hbA := ((allowed_cons ell _ b).1 h).1
    have hpos : 0 < (ell : Int) + b.sum := by exact_mod_cast (allowed_zero ell b hbA).1 h
    have up := L.up c (-1 :: b) (by rw [hs]; omega)
    have down := L.down c (1 :: b) (by rw [hs]; omega)
    rw [hs] at up down
    rw [show b.sum + -1 + 1 = b.sum by ring] at up
    rw [show b.sum + 1 - 1 = b.sum by ring] at down
    rw [L.cong _ _ _ fun n _ => (curl_out N ell Dm Dp rank c b hb n).1 h, L.lin, hs, add_zero, hs, hs, show b.sum - 1 = b.sum + -1 by ring, up, down, xi_J, xi_J]
    push_cast
    ring
  · intro b hb h
    have hbA := ((allowed_cons ell _ b).1 h).1
    have hpos : 0 < (ell : Int) + b.sum := by exact_mod_cast (allowed_minus ell b hbA).1 h
    have down := L.down c (0 :: b) (by rw [hs]; omega)
    rw [hs, add_zero] at down
    rw [L.cong _ _ _ fun n _ => (curl_out N ell Dm Dp rank c b hb n).2.1 h, L.one, hs, hs, add_zero, show b.sum + -1 = b.sum - 1 by ring, down, xi_J]
  · intro b hb h
    have hbA := ((allowed_cons ell _ b).1 h).1
    have hJ := allowed_sum ell b hbA
    have up := L.up c (0 :: b) (by rw [hs]; omega)
    rw [hs, add_zero] at up
    rw [L.cong _ _ _ fun n _ => (curl_out N ell Dm Dp rank c b hb n).2.2 h, L.one, hs, hs, add_zero, up, xi_J]

/-- the two orders of the steps give the same -/
theorem ladder_commute {Dm' Dp' : Int → Nat → Nat → ℝ} {R2 : Int → (Nat → ℂ) → ℝ → ℂ} (hr : 0 < r)
    (L0 : ∀ x, 0 < x → Ladder N ell Dm Dp R0 R1 x) (L1 : Ladder N ell Dm' Dp' R1 R2 r) (deg : Int) (h : 0 < ell + deg) (c : Nat → ℂ) :
    R2 deg (apply N (Dp' (deg - 1)) (apply N (Dm deg) c)) r = R2 deg (apply N (Dm' (deg + 1)) (apply N (Dp deg) c)) r := by
  have hu := L1.minus (deg + 1) (by omega) (apply N (Dp deg) c)
  have hv := L1.plus (deg - 1) (by omega) (apply N (Dm deg) c)
  rw [show deg + 1 - 1 = deg by ring] at hu
  rw [show deg - 1 + 1 = deg by ring] at hv
  have e : ∀ x : ℝ, 0 < x → R1 (deg + 1) (apply N (Dp deg) c) x - R1 (deg - 1) (apply N (Dm deg) c) x = ((-(2 * (ell + deg : ℝ) + 1) * x⁻¹ : ℝ) : ℂ) * R0 deg c x := by
    intro x hx
    have := ((L0 x hx).plus deg (by omega) c).unique ((L0 x hx).minus deg h c)
    push_cast at this ⊢
    linear_combination this
  have h1 : HasDerivAt (fun x : ℝ => -(2 * (ell + deg : ℝ) + 1) * x⁻¹) (-(2 * (ell + deg : ℝ) + 1) * (-(r ^ 2)⁻¹)) r := (hasDerivAt_inv hr.ne').const_mul _
  have hf := (L0 r hr).plus deg (by omega) c
  have h2 := h1.ofReal_comp.mul hf
  have h3 : HasDerivAt (fun x => R1 (deg + 1) (apply N (Dp deg) c) x - R1 (deg - 1) (apply N (Dm deg) c) x) _ r := hu.sub hv
  have h4 := h3.congr_of_eventuallyEq (f₁ := fun x => ((-(2 * (ell + deg : ℝ) + 1) * x⁻¹ : ℝ) : ℂ) * R0 deg c x)
    (by filter_upwards [lt_mem_nhds hr] with x hx; exact (e x hx).symm)
  have h5 := h2.unique h4
  have er := e r hr
  have hrc : (r : ℂ) ≠ 0 := by exact_mod_cast hr.ne'
  generalize R2 deg (apply N (Dp' (deg - 1)) (apply N (Dm deg) c)) r = A at *
  generalize R2 deg (apply N (Dm' (deg + 1)) (apply N (Dp deg) c)) r = B at *
  generalize R1 (deg + 1) (apply N (Dp deg) c) r = u at *
  generalize R1 (deg - 1) (apply N (Dm deg) c) r = v at *
  generalize R0 deg c r = f at *
  push_cast at h5 er
  field_simp at h5 er
  have hv' : (v : ℂ) = u - -(2 * (ell + deg) + 1) * f / r := by field_simp; linear_combination -er
  rw [hv'] at h5
  field_simp at h5
  apply mul_left_cancel₀ (pow_ne_zero 2 hrc)
  linear_combination h5

theorem ladder_laplacian {Dm' Dp' : Int → Nat → Nat → ℝ} {Lap : Int → Nat → Nat → ℝ} {R2 : Int → (Nat → ℂ) → ℝ → ℂ} (hr : 0 < r)
    (L0 : ∀ x, 0 < x → Ladder N ell Dm Dp R0 R1 x) (L1 : Ladder N ell Dm' Dp' R1 R2 r)
    (hL : ∀ deg : Int, 0 ≤ ell + deg → ∀ c, R2 deg (apply N (Lap deg) c) r = R2 deg (apply N (Dm' (deg + 1)) (apply N (Dp deg) c)) r)
    (rank : Nat) (c : List Int → Nat → ℂ) :
    IsLaplacian ell rank (comps ell rank R0 c) (fun τ => comps ell rank R2 (operate N ell (diagonalTerms Lap) rank c) τ r) r := by
  refine ⟨fun τ x => comps ell (rank + 1) R1 (operate N ell (gradientTerms ell Dm Dp) rank c) τ x, fun x hx => (L0 x hx).gradient hx.ne' rank c, ?_⟩
  obtain ⟨G, hG, hd⟩ := L1.divergence rank (operate N ell (gradientTerms ell Dm Dp) rank c)
  refine ⟨G, hG, fun τ hτ => (Eq.trans ?_ (hd τ hτ))⟩
  refine mix_congr ell rank _ _ τ hτ.1 fun b hb h => ?_
  have hJ := allowed_sum ell b h
  have hJr := J_nonneg ell b h
  rw [L1.cong _ _ _ fun n _ => diagonal_out N ell Lap rank c b hb h n, L1.cong _ _ _ fun n _ => divergence_out N ell Dm' Dp' rank _ b hb h n, hL _ hJ]
  have hp := allowed_plus ell b h
  have ap : ∀ (A : Nat → Nat → ℝ) (x : ℂ) (u v : Nat → ℂ), (∀ n, u n = x * v n) → apply N A u = fun n => x * apply N A v n := by
    intro A x u v huv
    funext n
    unfold Zernike.apply
    rw [Finset.mul_sum]
    exact Finset.sum_congr rfl fun j _ => by rw [huv]; ring
  rw [ap (Dm' (b.sum + 1)) _ _ _ fun n => (gradient_out N ell Dm Dp rank c b hb n).2.1 hp]
  obtain ⟨x1, x2⟩ := xi_sq _ hJr
  by_cases ham : Allowed ell (-1 :: b)
  · have hpos : 0 < (ell : Int) + b.sum := by exact_mod_cast (allowed_minus ell b h).1 ham
    simp only [if_pos ham]
    rw [ap (Dp' (b.sum - 1)) _ _ _ fun n => (gradient_out N ell Dm Dp rank c b hb n).1 ham]
    have := L1.lin b.sum ((xi (-1) (ell + b.sum) : ℂ) * (xi (-1) (ell + b.sum) : ℂ)) ((xi 1 (ell + b.sum) : ℂ) * (xi 1 (ell + b.sum) : ℂ))
      (apply N (Dp' (b.sum - 1)) (apply N (Dm b.sum) (c b))) (apply N (Dm' (b.sum + 1)) (apply N (Dp b.sum) (c b)))
    simp only [mul_assoc] at this ⊢
    rw [this, ladder_commute hr L0 L1 b.sum hpos, xi_J, xi_J]
    have s : ((xiJ (-1) (ell + (b.sum : Int)) : ℝ) : ℂ) * xiJ (-1) (ell + (b.sum : Int)) + ((xiJ 1 (ell + (b.sum : Int)) : ℝ) : ℂ) * xiJ 1 (ell + (b.sum : Int)) = 1 := by
      rw [← Complex.ofReal_mul, ← Complex.ofReal_mul, x1, x2, ← Complex.ofReal_add]
      rw [← add_div, show (ell : ℝ) + (b.sum : Int) + (ell + (b.sum : Int) + 1) = 2 * (ell + (b.sum : Int)) + 1 by ring, div_self (by linarith)]
      simp
    linear_combination -(R2 b.sum (apply N (Dm' (b.sum + 1)) (apply N (Dp b.sum) (c b))) r) * s
  · have hzero : (ell : ℝ) + (b.sum : Int) = 0 := by
      by_contra hne
      exact ham ((allowed_minus ell b h).2 (lt_of_le_of_ne hJr (Ne.symm hne)))
    simp only [if_neg ham, zero_add]
    have hx : xi 1 (ell + b.sum) = 1 := by rw [xi_J, hzero, xi_plus]; norm_num
    rw [hx]
    simp only [Complex.ofReal_one, one_mul]

end Dedalus.Ball
