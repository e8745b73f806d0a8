import Verif.Regularity.Props
import Mathlib.Analysis.Calculus.Deriv.Add
import Mathlib.Analysis.Calculus.Deriv.Mul
import Mathlib.Algebra.BigOperators.Field

/-!
# The gradient in regularity components
-/

namespace Dedalus.Regularity

open Spec

theorem ladder_k (ell : Nat) (mu s : Int) : ladder ell mu s = k ell mu s := by
  unfold ladder k
  rw [mul_comm (mu : ℝ) (s : ℝ)]

/-- factor of the components -/
noncomputable def xiJ (mu : Int) (J : ℝ) : ℝ := √((J + ((mu + 1) / 2 : Int)) / (2 * J + 1))

theorem xi_minus (J : ℝ) : xiJ (-1) J = √(J / (2 * J + 1)) := by unfold xiJ; norm_num
theorem xi_plus (J : ℝ) : xiJ 1 J = √((J + 1) / (2 * J + 1)) := by unfold xiJ; norm_num

/-- products of the coefficients with the factors -/
theorem A_minus (J : ℝ) (hJ : 0 < J) : coefA (-1) J = xiJ (-1) J := by
  rw [xi_minus]; unfold coefA
  rw [if_pos rfl, Real.sqrt_mul hJ.le, Real.sqrt_div hJ.le]
  have h1 : √J ≠ 0 := (Real.sqrt_pos.2 hJ).ne'
  have h2 : √(2 * J + 1) ≠ 0 := (Real.sqrt_pos.2 (by linarith)).ne'
  have h3 := Real.mul_self_sqrt hJ.le
  rw [div_eq_div_iff (mul_ne_zero h1 h2) h2]
  linear_combination -√(2 * J + 1) * h3

theorem A_plus (J : ℝ) (hJ : 0 ≤ J) : coefA 1 J = xiJ 1 J := by
  rw [xi_plus]; unfold coefA
  rw [if_neg (by norm_num), if_neg (by norm_num), Real.sqrt_mul (by linarith), Real.sqrt_div (by linarith)]
  have h1 : √(J + 1) ≠ 0 := (Real.sqrt_pos.2 (by linarith)).ne'
  have h2 : √(2 * J + 1) ≠ 0 := (Real.sqrt_pos.2 (by linarith)).ne'
  have h3 := Real.mul_self_sqrt (show 0 ≤ J + 1 by linarith)
  rw [div_eq_div_iff (mul_ne_zero h1 h2) h2]
  linear_combination -√(2 * J + 1) * h3

theorem B_minus (J : ℝ) (hJ : 0 < J) (s : Int) : J * coefB (-1) J s = -xiJ (-1) J := by
  rw [← A_minus J hJ]; unfold coefA coefB
  rw [if_pos rfl, if_pos rfl]; ring

theorem B_plus (J : ℝ) (hJ : 0 ≤ J) (s : Int) : (J + 1) * coefB 1 J s = xiJ 1 J := by
  rw [← A_plus J hJ]; unfold coefA coefB
  rw [if_neg (by norm_num), if_neg (by norm_num), if_neg (by norm_num), if_neg (by norm_num)]; ring

theorem xi_sq (J : ℝ) (hJ : 0 ≤ J) : xiJ (-1) J * xiJ (-1) J = J / (2 * J + 1) ∧ xiJ 1 J * xiJ 1 J = (J + 1) / (2 * J + 1) := by
  rw [xi_minus, xi_plus]
  exact ⟨Real.mul_self_sqrt (by positivity), Real.mul_self_sqrt (by positivity)⟩

/-- the zero eigenvalue -/
theorem ang_zero (ell r : Nat) (q : List Int → ℝ) (he : Eig ell r 0 q) (σ : Int) (hσ : σ = 1 ∨ σ = -1) (τ : List Int) (hr : τ.length = r) (hu : Unit3 τ) :
    ang ell σ 0 q τ = 0 := by
  have h : ip r (ang ell σ 0 q) (ang ell σ 0 q) = 0 := by
    rw [ang_adjoint ell σ 0 hσ, zero_add, ip_congr r q q _ (fun x => -0 * q x) (fun _ _ _ => rfl) (fun x h1 h2 => he σ hσ x h1 h2), ip_smul_right]
    ring
  rw [ip_tot, tot_sum] at h
  have := (Finset.sum_eq_zero_iff_of_nonneg (fun x _ => mul_self_nonneg _)).1 h τ ((mem_T r τ).2 ⟨hr, hu⟩)
  exact mul_self_eq_zero.1 this

/-- the explicit sum -/
theorem ang_explicit (ell : Nat) (σ : Int) (q : List Int → ℝ) (τ : List Int) :
    -ang ell σ 0 q τ = ladder ell σ τ.sum * q τ + ∑ i ∈ Finset.range τ.length,
      ((if τ[i]? = some (-σ) then q (τ.set i 0) else 0) - (if τ[i]? = some 0 then q (τ.set i σ) else 0)) := by
  unfold ang
  rw [spinPart_sum, ladder_k, add_zero, neg_sub, sub_eq_add_neg, ← Finset.sum_neg_distrib]
  congr 1
  apply Finset.sum_congr rfl
  intro i _
  split_ifs <;> ring

/-- components of a sum of products -/
noncomputable def mix (ell rank : Nat) (f : List Int → ℂ) (τ : List Int) : ℂ := ∑ b ∈ T rank, (intertwiner ell b τ : ℂ) * f b

theorem gradient_mix (ell rank : Nat) (f f' : List Int → ℂ) (r : ℝ) (σ : Int) (τ : List Int) :
    gradient ell (mix ell rank f) (mix ell rank f') r σ τ =
      ∑ b ∈ T rank, (if σ = 0 then (intertwiner ell b τ : ℂ) * f' b else -(ang ell σ 0 (intertwiner ell b) τ : ℂ) / r * f b) := by
  unfold gradient
  by_cases h : σ = 0
  · simp only [if_pos h]; rfl
  · simp only [if_neg h]
    have e : ∀ b, -(ang ell σ 0 (intertwiner ell b) τ : ℂ) / r * f b =
        ((ladder ell σ τ.sum : ℂ) * ((intertwiner ell b τ : ℂ) * f b) + ∑ i ∈ Finset.range τ.length,
          ((if τ[i]? = some (-σ) then (intertwiner ell b (τ.set i 0) : ℂ) * f b else 0) -
            (if τ[i]? = some 0 then (intertwiner ell b (τ.set i σ) : ℂ) * f b else 0))) / r := by
      intro b
      have := ang_explicit ell σ (intertwiner ell b) τ
      rw [← Complex.ofReal_neg, this]
      push_cast
      rw [div_mul_eq_mul_div, add_mul, Finset.sum_mul]
      congr 2
      · ring
      · apply Finset.sum_congr rfl
        intro i _
        split_ifs <;> push_cast <;> ring
    simp only [e]
    rw [← Finset.sum_div, Finset.sum_add_distrib, Finset.sum_comm]
    unfold mix
    rw [Finset.mul_sum]
    congr 2
    apply Finset.sum_congr rfl
    intro i _
    rw [Finset.sum_sub_distrib]
    split_ifs <;> simp

/-! ## One component -/

instance (ell : Nat) (reg : List Int) : Decidable (Allowed ell reg) := by unfold Allowed; infer_instance

theorem J_nonneg (ell : Nat) (b : List Int) (h : Allowed ell b) : (0 : ℝ) ≤ (ell : ℝ) + (b.sum : Int) := by
  have := allowed_sum ell b h
  exact_mod_cast this

theorem allowed_minus (ell : Nat) (b : List Int) (h : Allowed ell b) : Allowed ell (-1 :: b) ↔ (0 : ℝ) < (ell : ℝ) + (b.sum : Int) := by
  have h1 := allowed_sum ell b h
  rw [allowed_cons]
  constructor
  · rintro ⟨_, h2, _⟩
    have : (0 : Int) < ell + b.sum := by omega
    exact_mod_cast this
  · intro h2
    have : (0 : Int) < ell + b.sum := by exact_mod_cast h2
    exact ⟨h, by omega, by omega⟩

theorem allowed_zero (ell : Nat) (b : List Int) (h : Allowed ell b) : Allowed ell (0 :: b) ↔ (0 : ℝ) < (ell : ℝ) + (b.sum : Int) := by
  have h1 := allowed_sum ell b h
  rw [allowed_cons]
  constructor
  · rintro ⟨_, h2, h3⟩
    have : (0 : Int) < ell + b.sum := by omega
    exact_mod_cast this
  · intro h2
    have : (0 : Int) < ell + b.sum := by exact_mod_cast h2
    exact ⟨h, by omega, by omega⟩

theorem allowed_plus (ell : Nat) (b : List Int) (h : Allowed ell b) : Allowed ell (1 :: b) := by
  have h1 := allowed_sum ell b h
  rw [allowed_cons]
  exact ⟨h, by omega, by omega⟩

theorem inter_all (ell : Nat) (a : Int) (b : List Int) (hu : Unit3 (a :: b)) (h : Allowed ell (a :: b)) (σ : Int) (τ : List Int) (hτ : Unit3 (σ :: τ)) (hr : τ.length = b.length) :
    intertwiner ell (a :: b) (σ :: τ) = if σ = 0 then coefA a (ell + (b.sum : Int)) * intertwiner ell b τ
      else coefB a (ell + (b.sum : Int)) σ * ang ell σ 0 (intertwiner ell b) τ := by
  obtain ⟨h0, h1⟩ := inter_cons ell a b hu h
  have hs := hτ σ (by simp)
  by_cases hz : σ = 0
  · rw [if_pos hz, hz]; exact h0 τ hr hτ.tail
  · rw [if_neg hz]; exact h1 σ τ (by omega) hr hτ.tail

/-- the gradient of one component -/
theorem gradient_component (ell : Nat) (b : List Int) (hu : Unit3 b) (h : Allowed ell b) (f f' : ℂ) (r : ℝ) (hr0 : r ≠ 0) (gm gp : ℂ)
    (hm : Allowed ell (-1 :: b) → gm = (xiJ (-1) (ell + (b.sum : Int)) : ℂ) * (f' + ((ell + (b.sum : Int) + 1 : ℝ) : ℂ) / r * f))
    (hp : gp = (xiJ 1 (ell + (b.sum : Int)) : ℂ) * (f' - ((ell + (b.sum : Int) : ℝ) : ℂ) / r * f))
    (σ : Int) (τ : List Int) (hτ : Unit3 (σ :: τ)) (hr : τ.length = b.length) :
    (intertwiner ell (-1 :: b) (σ :: τ) : ℂ) * gm + (intertwiner ell (1 :: b) (σ :: τ) : ℂ) * gp =
      if σ = 0 then (intertwiner ell b τ : ℂ) * f' else -(ang ell σ 0 (intertwiner ell b) τ : ℂ) / r * f := by
  have hum : Unit3 (-1 :: b) := hu.cons (by simp)
  have hup : Unit3 (1 :: b) := hu.cons (by simp)
  have hJ := J_nonneg ell b h
  have hap := allowed_plus ell b h
  have hrc : (r : ℂ) ≠ 0 := by exact_mod_cast hr0
  have heig := inter_eig ell b hu h
  rw [inter_all ell 1 b hup hap σ τ hτ hr, hp]
  have hsig := hτ σ (by simp)
  by_cases ham : Allowed ell (-1 :: b)
  · rw [inter_all ell (-1) b hum ham σ τ hτ hr, hm ham]
    have hpos := (allowed_minus ell b h).1 ham
    have e1 := A_minus _ hpos
    have e2 := A_plus _ hJ
    have e3 := B_minus _ hpos σ
    have e4 := B_plus _ hJ σ
    obtain ⟨x1, x2⟩ := xi_sq _ hJ
    clear heig
    clear hm hp
    generalize (ell : ℝ) + (b.sum : Int) = J at *
    by_cases hz : σ = 0
    · simp only [if_pos hz, e1, e2]
      generalize intertwiner ell b τ = q
      generalize xiJ (-1) J = y1 at *
      generalize xiJ 1 J = y2 at *
      have hd : (2 * J + 1 : ℂ) ≠ 0 := by exact_mod_cast (show (2 * J + 1 : ℝ) ≠ 0 by linarith)
      have x1' : (y1 : ℂ) * y1 * (2 * J + 1) = J := by
        have : y1 * y1 * (2 * J + 1) = J := by rw [x1]; field_simp
        exact_mod_cast this
      have x2' : (y2 : ℂ) * y2 * (2 * J + 1) = J + 1 := by
        have : y2 * y2 * (2 * J + 1) = J + 1 := by rw [x2]; field_simp
        exact_mod_cast this
      push_cast
      field_simp
      apply mul_left_cancel₀ hd
      linear_combination ((q : ℂ) * (f' * r + (J + 1) * f)) * x1' + ((q : ℂ) * (f' * r - J * f)) * x2'
    · simp only [if_neg hz]
      generalize ang ell σ 0 (intertwiner ell b) τ = R
      generalize coefB (-1) J σ = B1 at *
      generalize coefB 1 J σ = B2 at *
      generalize xiJ (-1) J = y1 at *
      generalize xiJ 1 J = y2 at *
      have hd : (2 * J + 1 : ℂ) ≠ 0 := by exact_mod_cast (show (2 * J + 1 : ℝ) ≠ 0 by linarith)
      have x1' : (2 * J + 1) * (B1 : ℂ) * y1 = -1 := by
        have : J * ((2 * J + 1) * B1 * y1) = J * (-1) := by
          have : y1 * y1 * (2 * J + 1) = J := by rw [x1]; field_simp
          linear_combination ((2 * J + 1) * y1) * e3 - this
        exact_mod_cast mul_left_cancel₀ hpos.ne' this
      have x2' : (2 * J + 1) * (B2 : ℂ) * y2 = 1 := by
        have : (J + 1) * ((2 * J + 1) * B2 * y2) = (J + 1) * 1 := by
          have : y2 * y2 * (2 * J + 1) = J + 1 := by rw [x2]; field_simp
          linear_combination ((2 * J + 1) * y2) * e4 + this
        exact_mod_cast mul_left_cancel₀ (show J + 1 ≠ 0 by linarith) this
      push_cast
      field_simp
      apply mul_left_cancel₀ hd
      linear_combination ((R : ℂ) * (f' * r + (J + 1) * f)) * x1' + ((R : ℂ) * (f' * r - J * f)) * x2'
  · rw [inter_forbidden ell (-1) b hum σ τ ham, Complex.ofReal_zero, zero_mul, zero_add]
    have hzero : (ell : ℝ) + (b.sum : Int) = 0 := by
      by_contra hne
      exact ham ((allowed_minus ell b h).2 (lt_of_le_of_ne hJ (Ne.symm hne)))
    have e2 := A_plus _ hJ
    rw [hzero] at heig
    norm_num at heig
    have hx : xiJ 1 ((ell : ℝ) + (b.sum : Int)) = 1 := by rw [hzero, xi_plus]; norm_num
    rw [hx] at e2 ⊢
    by_cases hz : σ = 0
    · simp only [if_pos hz, e2]
      rw [hzero]
      push_cast
      ring
    · simp only [if_neg hz]
      rw [ang_zero ell b.length _ heig σ (by omega) τ hr hτ.tail]
      push_cast
      ring

/-- components that are not allowed do not count -/
theorem inter_tail (ell : Nat) (b : List Int) (hu : Unit3 b) (h : ¬Allowed ell b) (τ : List Int) (hr : τ.length = b.length) : intertwiner ell b τ = 0 := by
  cases b with
  | nil => exact absurd (allowed_nil ell) h
  | cons a b =>
    cases τ with
    | nil => simp at hr
    | cons s τ => exact inter_forbidden ell a b hu s τ h

theorem ang_tail (ell : Nat) (b : List Int) (hu : Unit3 b) (h : ¬Allowed ell b) (σ : Int) (hσ : σ = 1 ∨ σ = -1) (τ : List Int) (hr : τ.length = b.length) (hτ : Unit3 τ) :
    ang ell σ 0 (intertwiner ell b) τ = 0 := by
  rw [ang_congr ell σ 0 _ (fun x => 0 * intertwiner ell b x) b.length hσ (fun x h1 _ => by rw [inter_tail ell b hu h x h1]; ring) τ hr hτ, ang_smul]
  ring

theorem mix_succ (ell rank : Nat) (g : List Int → ℂ) (t : List Int) :
    mix ell (rank + 1) g t = ∑ b ∈ T rank, ((intertwiner ell (-1 :: b) t : ℂ) * g (-1 :: b) + (intertwiner ell (0 :: b) t : ℂ) * g (0 :: b) +
      (intertwiner ell (1 :: b) t : ℂ) * g (1 :: b)) := by
  unfold mix
  rw [← tot_sum, tot_succ, tot_sum, tot_sum, tot_sum, ← Finset.sum_add_distrib, ← Finset.sum_add_distrib]

/-- The gradient in regularity components. -/
theorem gradient_of (ell rank : Nat) (f f' g : List Int → ℂ) (r : ℝ) (hr0 : r ≠ 0)
    (hm : ∀ b ∈ T rank, Allowed ell (-1 :: b) → g (-1 :: b) = (xiJ (-1) (ell + (b.sum : Int)) : ℂ) * (f' b + ((ell + (b.sum : Int) + 1 : ℝ) : ℂ) / r * f b))
    (hp : ∀ b ∈ T rank, Allowed ell (1 :: b) → g (1 :: b) = (xiJ 1 (ell + (b.sum : Int)) : ℂ) * (f' b - ((ell + (b.sum : Int) : ℝ) : ℂ) / r * f b))
    (h0 : ∀ b ∈ T rank, Allowed ell (0 :: b) → g (0 :: b) = 0) (σ : Int) (τ : List Int) (hτ : Unit3 (σ :: τ)) (hr : τ.length = rank) :
    mix ell (rank + 1) g (σ :: τ) = gradient ell (mix ell rank f) (mix ell rank f') r σ τ := by
  rw [gradient_mix, mix_succ]
  apply Finset.sum_congr rfl
  intro b hb
  obtain ⟨hl, hu⟩ := (mem_T rank b).1 hb
  have hz : (intertwiner ell (0 :: b) (σ :: τ) : ℂ) * g (0 :: b) = 0 := by
    by_cases h : Allowed ell (0 :: b)
    · rw [h0 b hb h, mul_zero]
    · rw [inter_forbidden ell 0 b (hu.cons (by simp)) σ τ h]; simp
  rw [hz, add_zero]
  by_cases h : Allowed ell b
  · exact gradient_component ell b hu h (f b) (f' b) r hr0 _ _ (hm b hb) (hp b hb (allowed_plus ell b h)) σ τ hτ (by omega)
  · have hn : ∀ a, ¬Allowed ell (a :: b) := fun a ha => h ((allowed_cons ell a b).1 ha).1
    rw [inter_forbidden ell (-1) b (hu.cons (by simp)) σ τ (hn _), inter_forbidden ell 1 b (hu.cons (by simp)) σ τ (hn _)]
    have hs := hτ σ (by simp)
    split_ifs with h1
    · rw [inter_tail ell b hu h τ (by omega)]; simp
    · rw [ang_tail ell b hu h σ (by omega) τ (by omega) hτ.tail]; simp

/-- the angular momentum of a component -/
theorem ang_inter (ell : Nat) (a : Int) (b : List Int) (hu : Unit3 (a :: b)) (h : Allowed ell (a :: b)) (ρ : Int) (hρ : ρ = 1 ∨ ρ = -1) (τ : List Int) (hτ : Unit3 τ) (hr : τ.length = b.length) :
    ang ell ρ 0 (intertwiner ell (a :: b)) (0 :: τ) = (coefB a (ell + (b.sum : Int)) ρ + coefA a (ell + (b.sum : Int))) * ang ell ρ 0 (intertwiner ell b) τ ∧
    ang ell ρ 0 (intertwiner ell (a :: b)) (-ρ :: τ) =
      -(coefA a (ell + (b.sum : Int)) + coefB a (ell + (b.sum : Int)) (-ρ) * ((ell + (b.sum : Int) : ℝ) * (ell + (b.sum : Int) + 1) / 2)) * intertwiner ell b τ := by
  have hb := ((allowed_cons ell a b).1 h).1
  have he := inter_eig ell b hu.tail hb
  obtain ⟨hF0, hF1⟩ := inter_cons ell a b hu h
  have hρ' : -ρ = 1 ∨ -ρ = -1 := by omega
  constructor
  · rw [ang_cons, if_neg (by omega), if_pos rfl, hF1 ρ τ hρ hr hτ, add_zero,
      ang_congr ell ρ 0 _ (fun x => coefA a (ell + (b.sum : Int)) * intertwiner ell b x) b.length hρ (fun x h1 h2 => hF0 x h1 h2) τ hr hτ, ang_smul]
    ring
  · rw [ang_cons, if_pos rfl, if_neg (by omega), hF0 τ hr hτ, zero_add,
      ang_congr ell ρ (-ρ) _ (fun x => coefB a (ell + (b.sum : Int)) (-ρ) * ang ell (-ρ) 0 (intertwiner ell b) x) b.length hρ (fun x h1 h2 => hF1 (-ρ) x hρ' h1 h2) τ hr hτ, ang_smul]
    have := he (-ρ) hρ' τ hr hτ
    rw [neg_neg] at this
    rw [this]
    ring

theorem gradient_mix_succ (ell rank : Nat) (f f' : List Int → ℂ) (r : ℝ) (σ : Int) (τ : List Int) :
    gradient ell (mix ell (rank + 1) f) (mix ell (rank + 1) f') r σ τ =
      ∑ b ∈ T rank, ((if σ = 0 then (intertwiner ell (-1 :: b) τ : ℂ) * f' (-1 :: b) else -(ang ell σ 0 (intertwiner ell (-1 :: b)) τ : ℂ) / r * f (-1 :: b)) +
        (if σ = 0 then (intertwiner ell (0 :: b) τ : ℂ) * f' (0 :: b) else -(ang ell σ 0 (intertwiner ell (0 :: b)) τ : ℂ) / r * f (0 :: b)) +
        (if σ = 0 then (intertwiner ell (1 :: b) τ : ℂ) * f' (1 :: b) else -(ang ell σ 0 (intertwiner ell (1 :: b)) τ : ℂ) / r * f (1 :: b))) := by
  rw [gradient_mix, ← tot_sum, tot_succ, tot_sum, tot_sum, tot_sum, ← Finset.sum_add_distrib, ← Finset.sum_add_distrib]

/-- what the three components contribute to one component of the gradient -/
noncomputable def part (ell : Nat) (b : List Int) (f f' : ℂ) (r : ℝ) (σ : Int) (τ : List Int) : ℂ :=
  if σ = 0 then (intertwiner ell b τ : ℂ) * f' else -(ang ell σ 0 (intertwiner ell b) τ : ℂ) / r * f

theorem part_tail (ell : Nat) (b : List Int) (hu : Unit3 b) (h : ¬Allowed ell b) (f f' : ℂ) (r : ℝ) (σ : Int) (τ : List Int) (hσ : σ = -1 ∨ σ = 0 ∨ σ = 1) (hτ : Unit3 τ) (hr : τ.length = b.length) :
    part ell b f f' r σ τ = 0 := by
  unfold part
  split_ifs with h1
  · rw [inter_tail ell b hu h τ hr]; simp
  · rw [ang_tail ell b hu h σ (by omega) τ hr hτ]; simp

/-- the trace of the gradient of one component -/
theorem trace_component (ell : Nat) (a : Int) (b : List Int) (hu : Unit3 (a :: b)) (h : Allowed ell (a :: b)) (f f' : ℂ) (r : ℝ) (τ : List Int) (hτ : Unit3 τ) (hr : τ.length = b.length) :
    part ell (a :: b) f f' r 0 (0 :: τ) + part ell (a :: b) f f' r 1 (-1 :: τ) + part ell (a :: b) f f' r (-1) (1 :: τ) =
      (intertwiner ell b τ : ℂ) * ((coefA a (ell + (b.sum : Int)) : ℂ) * f' + ((2 * coefA a (ell + (b.sum : Int)) +
        (coefB a (ell + (b.sum : Int)) 1 + coefB a (ell + (b.sum : Int)) (-1)) * ((ell + (b.sum : Int) : ℝ) * (ell + (b.sum : Int) + 1) / 2) : ℝ) : ℂ) / r * f) := by
  have h1 := (ang_inter ell a b hu h 1 (Or.inl rfl) τ hτ hr).2
  have h2 := (ang_inter ell a b hu h (-1) (Or.inr rfl) τ hτ hr).2
  rw [neg_neg] at h2
  unfold part
  rw [if_pos rfl, if_neg (by norm_num), if_neg (by norm_num), h1, h2, (inter_cons ell a b hu h).1 τ hr hτ]
  push_cast
  ring

/-- The divergence in regularity components. -/
theorem divergence_of (ell rank : Nat) (f f' g : List Int → ℂ) (r : ℝ)
    (hg : ∀ b ∈ T rank, Allowed ell b → g b =
      (if Allowed ell (-1 :: b) then (xiJ (-1) (ell + (b.sum : Int)) : ℂ) * (f' (-1 :: b) - ((ell + (b.sum : Int) - 1 : ℝ) : ℂ) / r * f (-1 :: b)) else 0) +
      (xiJ 1 (ell + (b.sum : Int)) : ℂ) * (f' (1 :: b) + ((ell + (b.sum : Int) + 2 : ℝ) : ℂ) / r * f (1 :: b)))
    (τ : List Int) (hτ : Unit3 τ) (hr : τ.length = rank) :
    mix ell rank g τ = gradient ell (mix ell (rank + 1) f) (mix ell (rank + 1) f') r 0 (0 :: τ) +
      gradient ell (mix ell (rank + 1) f) (mix ell (rank + 1) f') r 1 (-1 :: τ) + gradient ell (mix ell (rank + 1) f) (mix ell (rank + 1) f') r (-1) (1 :: τ) := by
  rw [gradient_mix_succ, gradient_mix_succ, gradient_mix_succ, ← Finset.sum_add_distrib, ← Finset.sum_add_distrib]
  unfold mix
  apply Finset.sum_congr rfl
  intro b hb
  obtain ⟨hl, hu⟩ := (mem_T rank b).1 hb
  have hum : Unit3 (-1 :: b) := hu.cons (by simp)
  have hu0 : Unit3 (0 :: b) := hu.cons (by simp)
  have hup : Unit3 (1 :: b) := hu.cons (by simp)
  have hrb : τ.length = b.length := by omega
  change _ = (part ell (-1 :: b) (f (-1 :: b)) (f' (-1 :: b)) r 0 (0 :: τ) + part ell (0 :: b) (f (0 :: b)) (f' (0 :: b)) r 0 (0 :: τ) +
      part ell (1 :: b) (f (1 :: b)) (f' (1 :: b)) r 0 (0 :: τ)) +
    (part ell (-1 :: b) (f (-1 :: b)) (f' (-1 :: b)) r 1 (-1 :: τ) + part ell (0 :: b) (f (0 :: b)) (f' (0 :: b)) r 1 (-1 :: τ) +
      part ell (1 :: b) (f (1 :: b)) (f' (1 :: b)) r 1 (-1 :: τ)) +
    (part ell (-1 :: b) (f (-1 :: b)) (f' (-1 :: b)) r (-1) (1 :: τ) + part ell (0 :: b) (f (0 :: b)) (f' (0 :: b)) r (-1) (1 :: τ) +
      part ell (1 :: b) (f (1 :: b)) (f' (1 :: b)) r (-1) (1 :: τ))
  have tz : ∀ a, (a = -1 ∨ a = 0 ∨ a = 1) → ¬Allowed ell (a :: b) →
      part ell (a :: b) (f (a :: b)) (f' (a :: b)) r 0 (0 :: τ) + part ell (a :: b) (f (a :: b)) (f' (a :: b)) r 1 (-1 :: τ) +
        part ell (a :: b) (f (a :: b)) (f' (a :: b)) r (-1) (1 :: τ) = 0 := by
    intro a ha h
    rw [part_tail ell _ (hu.cons ha) h _ _ r 0 (0 :: τ) (by simp) (hτ.cons (by simp)) (by simp [hrb]),
      part_tail ell _ (hu.cons ha) h _ _ r 1 (-1 :: τ) (by simp) (hτ.cons (by simp)) (by simp [hrb]),
      part_tail ell _ (hu.cons ha) h _ _ r (-1) (1 :: τ) (by simp) (hτ.cons (by simp)) (by simp [hrb])]
    ring
  have t0 : part ell (0 :: b) (f (0 :: b)) (f' (0 :: b)) r 0 (0 :: τ) + part ell (0 :: b) (f (0 :: b)) (f' (0 :: b)) r 1 (-1 :: τ) +
      part ell (0 :: b) (f (0 :: b)) (f' (0 :: b)) r (-1) (1 :: τ) = 0 := by
    by_cases h : Allowed ell (0 :: b)
    · rw [trace_component ell 0 b hu0 h _ _ r τ hτ hrb]
      have hc : ∀ J : ℝ, coefA 0 J = 0 ∧ coefB 0 J 1 + coefB 0 J (-1) = 0 := fun J => by
        unfold coefA coefB
        norm_num
        ring
      obtain ⟨c1, c2⟩ := hc (ell + (b.sum : Int))
      rw [c1, c2]
      simp
    · exact tz 0 (by simp) h
  by_cases h : Allowed ell b
  · have hJ := J_nonneg ell b h
    have hap := allowed_plus ell b h
    have tp := trace_component ell 1 b hup hap (f (1 :: b)) (f' (1 :: b)) r τ hτ hrb
    rw [hg b hb h]
    have e2 := A_plus _ hJ
    have e4 := B_plus _ hJ 1
    have e5 := B_plus _ hJ (-1)
    have tm : part ell (-1 :: b) (f (-1 :: b)) (f' (-1 :: b)) r 0 (0 :: τ) + part ell (-1 :: b) (f (-1 :: b)) (f' (-1 :: b)) r 1 (-1 :: τ) +
        part ell (-1 :: b) (f (-1 :: b)) (f' (-1 :: b)) r (-1) (1 :: τ) =
        (intertwiner ell b τ : ℂ) * (if Allowed ell (-1 :: b) then (xiJ (-1) (ell + (b.sum : Int)) : ℂ) * (f' (-1 :: b) - ((ell + (b.sum : Int) - 1 : ℝ) : ℂ) / r * f (-1 :: b)) else 0) := by
      by_cases ham : Allowed ell (-1 :: b)
      · rw [trace_component ell (-1) b hum ham _ _ r τ hτ hrb, if_pos ham]
        have hpos := (allowed_minus ell b h).1 ham
        have e1 := A_minus _ hpos
        have e3 := B_minus _ hpos 1
        have e6 := B_minus _ hpos (-1)
        clear hg tp e2 e4 e5
        generalize (ell : ℝ) + (b.sum : Int) = J at *
        have hc : 2 * coefA (-1) J + (coefB (-1) J 1 + coefB (-1) J (-1)) * (J * (J + 1) / 2) = -xiJ (-1) J * (J - 1) := by
          linear_combination 2 * e1 + (J + 1) / 2 * (e3 + e6)
        rw [hc, e1]
        push_cast
        ring
      · rw [tz (-1) (by simp) ham, if_neg ham, mul_zero]
    have hc : 2 * coefA 1 (ell + (b.sum : Int)) + (coefB 1 (ell + (b.sum : Int)) 1 + coefB 1 (ell + (b.sum : Int)) (-1)) * ((ell + (b.sum : Int) : ℝ) * (ell + (b.sum : Int) + 1) / 2) =
        xiJ 1 (ell + (b.sum : Int)) * (ell + (b.sum : Int) + 2) := by
      linear_combination 2 * e2 + ((ell : ℝ) + (b.sum : Int)) / 2 * (e4 + e5)
    rw [hc, e2] at tp
    push_cast at tp ⊢
    push_cast at tm
    linear_combination -t0 - tm - tp
  · have hn : ∀ a, ¬Allowed ell (a :: b) := fun a ha => h ((allowed_cons ell a b).1 ha).1
    rw [inter_tail ell b hu h τ hrb]
    push_cast
    linear_combination -(tz (-1) (by simp) (hn _)) - t0 - tz 1 (by simp) (hn _)

/-- the antisymmetric parts of the gradient of one component -/
theorem curl_component (ell : Nat) (a : Int) (b : List Int) (hu : Unit3 (a :: b)) (h : Allowed ell (a :: b)) (f f' : ℂ) (r : ℝ) (τ : List Int) (hτ : Unit3 τ) (hr : τ.length = b.length) :
    (part ell (a :: b) f f' r 1 (-1 :: τ) - part ell (a :: b) f f' r (-1) (1 :: τ) =
      (((coefB a (ell + (b.sum : Int)) (-1) - coefB a (ell + (b.sum : Int)) 1) * ((ell + (b.sum : Int) : ℝ) * (ell + (b.sum : Int) + 1) / 2) * intertwiner ell b τ : ℝ) : ℂ) / r * f) ∧
    ∀ ρ, (ρ = 1 ∨ ρ = -1) → part ell (a :: b) f f' r 0 (ρ :: τ) - part ell (a :: b) f f' r ρ (0 :: τ) =
      (ang ell ρ 0 (intertwiner ell b) τ : ℂ) * ((coefB a (ell + (b.sum : Int)) ρ : ℂ) * f' + ((coefB a (ell + (b.sum : Int)) ρ + coefA a (ell + (b.sum : Int)) : ℝ) : ℂ) / r * f) := by
  constructor
  · have h1 := (ang_inter ell a b hu h 1 (Or.inl rfl) τ hτ hr).2
    have h2 := (ang_inter ell a b hu h (-1) (Or.inr rfl) τ hτ hr).2
    rw [neg_neg] at h2
    unfold part
    rw [if_neg (by norm_num), if_neg (by norm_num), h1, h2]
    push_cast
    ring
  · intro ρ hρ
    have h1 := (ang_inter ell a b hu h ρ hρ τ hτ hr).1
    unfold part
    rw [if_pos rfl, if_neg (by omega), h1, (inter_cons ell a b hu h).2 ρ τ hρ hr hτ]
    push_cast
    ring

/-- one of the components of the curl, by terms -/
theorem gradient_parts (ell rank : Nat) (f f' : List Int → ℂ) (r : ℝ) (σ : Int) (τ : List Int) (σ' : Int) (τ' : List Int) :
    gradient ell (mix ell (rank + 1) f) (mix ell (rank + 1) f') r σ τ - gradient ell (mix ell (rank + 1) f) (mix ell (rank + 1) f') r σ' τ' =
      ∑ b ∈ T rank, ((part ell (-1 :: b) (f (-1 :: b)) (f' (-1 :: b)) r σ τ - part ell (-1 :: b) (f (-1 :: b)) (f' (-1 :: b)) r σ' τ') +
        (part ell (0 :: b) (f (0 :: b)) (f' (0 :: b)) r σ τ - part ell (0 :: b) (f (0 :: b)) (f' (0 :: b)) r σ' τ') +
        (part ell (1 :: b) (f (1 :: b)) (f' (1 :: b)) r σ τ - part ell (1 :: b) (f (1 :: b)) (f' (1 :: b)) r σ' τ')) := by
  rw [gradient_mix_succ, gradient_mix_succ, ← Finset.sum_sub_distrib]
  apply Finset.sum_congr rfl
  intro b _
  unfold part
  ring

theorem coefB_sign (J : ℝ) : coefB (-1) J (-1) = coefB (-1) J 1 ∧ coefB 1 J (-1) = coefB 1 J 1 := by
  unfold coefB; norm_num

/-- relations between the coefficients -/
theorem coef_rel (J : ℝ) (hJ : 0 < J) : ∃ w : ℝ, w ≠ 0 ∧ (∀ s, w * coefB (-1) J s = -xiJ 1 J) ∧ (∀ s, w * coefB 1 J s = xiJ (-1) J) ∧
    (∀ s, w * coefB 0 J s = s) ∧ w * w = J * (J + 1) ∧ w * xiJ (-1) J = J * xiJ 1 J ∧ w * xiJ 1 J = (J + 1) * xiJ (-1) J := by
  have hw : 0 < √(J * (J + 1)) := Real.sqrt_pos.2 (by positivity)
  have hww : √(J * (J + 1)) * √(J * (J + 1)) = J * (J + 1) := Real.mul_self_sqrt (by positivity)
  have r1 : √(J * (J + 1)) * xiJ (-1) J = J * xiJ 1 J := by
    rw [xi_minus, xi_plus, Real.sqrt_mul hJ.le, Real.sqrt_div hJ.le, Real.sqrt_div (by linarith)]
    have h3 := Real.mul_self_sqrt hJ.le
    linear_combination √(J + 1) / √(2 * J + 1) * h3
  have r2 : √(J * (J + 1)) * xiJ 1 J = (J + 1) * xiJ (-1) J := by
    rw [xi_minus, xi_plus, Real.sqrt_mul hJ.le, Real.sqrt_div hJ.le, Real.sqrt_div (by linarith)]
    have h3 := Real.mul_self_sqrt (show 0 ≤ J + 1 by linarith)
    linear_combination √J / √(2 * J + 1) * h3
  refine ⟨√(J * (J + 1)), hw.ne', fun s => ?_, fun s => ?_, fun s => ?_, hww, r1, r2⟩
  · have := B_minus J hJ s
    apply mul_left_cancel₀ hJ.ne'
    linear_combination √(J * (J + 1)) * this - r1
  · have := B_plus J hJ.le s
    apply mul_left_cancel₀ (show J + 1 ≠ 0 by linarith)
    linear_combination √(J * (J + 1)) * this + r2
  · unfold coefB
    rw [if_neg (by norm_num), if_pos rfl]
    field_simp

/-- The curl in regularity components. -/
theorem curl_of (ell rank : Nat) (f f' g : List Int → ℂ) (r : ℝ) (hr0 : r ≠ 0)
    (h0 : ∀ b ∈ T rank, Allowed ell (0 :: b) → g (0 :: b) =
      -Complex.I * (xiJ 1 (ell + (b.sum : Int)) : ℂ) * (f' (-1 :: b) - ((ell + (b.sum : Int) - 1 : ℝ) : ℂ) / r * f (-1 :: b)) +
      Complex.I * (xiJ (-1) (ell + (b.sum : Int)) : ℂ) * (f' (1 :: b) + ((ell + (b.sum : Int) + 2 : ℝ) : ℂ) / r * f (1 :: b)))
    (hm : ∀ b ∈ T rank, Allowed ell (-1 :: b) → g (-1 :: b) =
      -Complex.I * (xiJ 1 (ell + (b.sum : Int)) : ℂ) * (f' (0 :: b) + ((ell + (b.sum : Int) + 1 : ℝ) : ℂ) / r * f (0 :: b)))
    (hp : ∀ b ∈ T rank, Allowed ell (1 :: b) → g (1 :: b) =
      Complex.I * (xiJ (-1) (ell + (b.sum : Int)) : ℂ) * (f' (0 :: b) - ((ell + (b.sum : Int) : ℝ) : ℂ) / r * f (0 :: b)))
    (τ : List Int) (hτ : Unit3 τ) (hr : τ.length = rank) :
    mix ell (rank + 1) g (0 :: τ) = Complex.I * (gradient ell (mix ell (rank + 1) f) (mix ell (rank + 1) f') r 1 (-1 :: τ) -
      gradient ell (mix ell (rank + 1) f) (mix ell (rank + 1) f') r (-1) (1 :: τ)) ∧
    ∀ ρ : Int, (ρ = 1 ∨ ρ = -1) → mix ell (rank + 1) g (ρ :: τ) = ρ * Complex.I * (gradient ell (mix ell (rank + 1) f) (mix ell (rank + 1) f') r 0 (ρ :: τ) -
      gradient ell (mix ell (rank + 1) f) (mix ell (rank + 1) f') r ρ (0 :: τ)) := by
  have hrc : (r : ℂ) ≠ 0 := by exact_mod_cast hr0
  have zero : ∀ b ∈ T rank, ∀ a, (a = -1 ∨ a = 0 ∨ a = 1) → ¬Allowed ell (a :: b) → ∀ σ t, (σ = -1 ∨ σ = 0 ∨ σ = 1) → (t = -1 ∨ t = 0 ∨ t = 1) → part ell (a :: b) (f (a :: b)) (f' (a :: b)) r σ (t :: τ) = 0 := by
    intro b hb a ha h σ t hσ ht
    obtain ⟨hl, hu⟩ := (mem_T rank b).1 hb
    exact part_tail ell _ (hu.cons ha) h _ _ r σ (t :: τ) hσ (hτ.cons ht) (by simp; omega)
  have izero : ∀ b ∈ T rank, ∀ a, (a = -1 ∨ a = 0 ∨ a = 1) → ¬Allowed ell (a :: b) → ∀ t, intertwiner ell (a :: b) (t :: τ) = 0 := by
    intro b hb a ha h t
    obtain ⟨hl, hu⟩ := (mem_T rank b).1 hb
    exact inter_forbidden ell a b (hu.cons ha) t τ h
  constructor
  · rw [gradient_parts, mix_succ, Finset.mul_sum]
    apply Finset.sum_congr rfl
    intro b hb
    obtain ⟨hl, hu⟩ := (mem_T rank b).1 hb
    have hum : Unit3 (-1 :: b) := hu.cons (by simp)
    have hu0 : Unit3 (0 :: b) := hu.cons (by simp)
    have hup : Unit3 (1 :: b) := hu.cons (by simp)
    have hrb : τ.length = b.length := by omega
    by_cases h : Allowed ell b
    · have hap := allowed_plus ell b h
      have hJ := J_nonneg ell b h
      rw [(curl_component ell 1 b hup hap _ _ r τ hτ hrb).1, (inter_cons ell 1 b hup hap).1 τ hrb hτ, hp b hb hap]
      by_cases hpos : (0 : ℝ) < (ell : ℝ) + (b.sum : Int)
      · have ham := (allowed_minus ell b h).2 hpos
        have ha0 := (allowed_zero ell b h).2 hpos
        rw [(curl_component ell (-1) b hum ham _ _ r τ hτ hrb).1, (inter_cons ell (-1) b hum ham).1 τ hrb hτ, hm b hb ham,
          (curl_component ell 0 b hu0 ha0 _ _ r τ hτ hrb).1, (inter_cons ell 0 b hu0 ha0).1 τ hrb hτ]
        obtain ⟨w, hw, c1, c2, c3, c4, c5, c6⟩ := coef_rel _ hpos
        have e1 := A_minus _ hpos
        have e2 := A_plus _ hJ
        obtain ⟨x1, x2⟩ := xi_sq _ hJ
        rw [(coefB_sign _).1, (coefB_sign _).2]
        have cz : coefA 0 (ell + (b.sum : Int)) = 0 := by unfold coefA; norm_num
        have cm := c3 (-1)
        have cp := c3 1
        clear h0 hm hp c1 c2 c3
        generalize (ell : ℝ) + (b.sum : Int) = J at *
        rw [cz, e1, e2]
        generalize xiJ (-1) J = y1 at *
        generalize xiJ 1 J = y2 at *
        generalize coefB 0 J (-1) = Bm at *
        generalize coefB 0 J 1 = Bp at *
        generalize intertwiner ell b τ = q
        have hd : 2 * J + 1 ≠ 0 := by linarith
        have key : (Bm - Bp) * (J * (J + 1) / 2) = -((2 * J + 1) * (y1 * y2)) := by
          have k1 : (Bm - Bp) * (J * (J + 1) / 2) = -w := by
            push_cast at cm cp
            linear_combination -(Bm - Bp) / 2 * c4 + w / 2 * cm - w / 2 * cp
          have k2 : (2 * J + 1) * (y1 * y2) = w := by
            apply mul_left_cancel₀ hw
            have : y1 * y1 * (2 * J + 1) = J := by rw [x1]; field_simp
            linear_combination (2 * J + 1) * y1 * c6 + (J + 1) * this - c4
          rw [k1, k2]
        have key' : ((Bm : ℂ) - Bp) * (J * (J + 1) / 2) = -((2 * J + 1) * (y1 * y2)) := by exact_mod_cast key
        push_cast
        field_simp
        linear_combination (-2 * q * Complex.I * f (0 :: b)) * key'
      · have hz : (ell : ℝ) + (b.sum : Int) = 0 := le_antisymm (not_lt.1 hpos) hJ
        have ham : ¬Allowed ell (-1 :: b) := fun hh => hpos ((allowed_minus ell b h).1 hh)
        have ha0 : ¬Allowed ell (0 :: b) := fun hh => hpos ((allowed_zero ell b h).1 hh)
        rw [zero b hb (-1) (by simp) ham 1 (-1) (by simp) (by simp), zero b hb (-1) (by simp) ham (-1) 1 (by simp) (by simp),
          zero b hb 0 (by simp) ha0 1 (-1) (by simp) (by simp), zero b hb 0 (by simp) ha0 (-1) 1 (by simp) (by simp),
          izero b hb (-1) (by simp) ham, izero b hb 0 (by simp) ha0, hz]
        have : xiJ (-1) 0 = 0 := by rw [xi_minus]; simp
        rw [this]
        simp
    · have hn : ∀ a, ¬Allowed ell (a :: b) := fun a ha => h ((allowed_cons ell a b).1 ha).1
      simp only [izero b hb (-1) (by simp) (hn _), izero b hb 0 (by simp) (hn _), izero b hb 1 (by simp) (hn _),
        zero b hb (-1) (by simp) (hn _) 1 (-1) (by simp) (by simp), zero b hb 0 (by simp) (hn _) 1 (-1) (by simp) (by simp),
        zero b hb 1 (by simp) (hn _) 1 (-1) (by simp) (by simp), zero b hb (-1) (by simp) (hn _) (-1) 1 (by simp) (by simp),
        zero b hb 0 (by simp) (hn _) (-1) 1 (by simp) (by simp), zero b hb 1 (by simp) (hn _) (-1) 1 (by simp) (by simp)]
      simp
  · intro ρ hρ
    have hρ3 : ρ = -1 ∨ ρ = 0 ∨ ρ = 1 := by omega
    rw [gradient_parts, mix_succ, Finset.mul_sum]
    apply Finset.sum_congr rfl
    intro b hb
    obtain ⟨hl, hu⟩ := (mem_T rank b).1 hb
    have hum : Unit3 (-1 :: b) := hu.cons (by simp)
    have hu0 : Unit3 (0 :: b) := hu.cons (by simp)
    have hup : Unit3 (1 :: b) := hu.cons (by simp)
    have hrb : τ.length = b.length := by omega
    by_cases h : Allowed ell b
    · have hap := allowed_plus ell b h
      have hJ := J_nonneg ell b h
      rw [(curl_component ell 1 b hup hap _ _ r τ hτ hrb).2 ρ hρ, (inter_cons ell 1 b hup hap).2 ρ τ hρ hrb hτ, hp b hb hap]
      by_cases hpos : (0 : ℝ) < (ell : ℝ) + (b.sum : Int)
      · have ham := (allowed_minus ell b h).2 hpos
        have ha0 := (allowed_zero ell b h).2 hpos
        rw [(curl_component ell (-1) b hum ham _ _ r τ hτ hrb).2 ρ hρ, (inter_cons ell (-1) b hum ham).2 ρ τ hρ hrb hτ, hm b hb ham,
          (curl_component ell 0 b hu0 ha0 _ _ r τ hτ hrb).2 ρ hρ, (inter_cons ell 0 b hu0 ha0).2 ρ τ hρ hrb hτ, h0 b hb ha0]
        obtain ⟨w, hw, c1, c2, c3, c4, c5, c6⟩ := coef_rel _ hpos
        have e1 := A_minus _ hpos
        have e2 := A_plus _ hJ
        have e3 := B_minus _ hpos ρ
        have e4 := B_plus _ hJ ρ
        obtain ⟨x1, x2⟩ := xi_sq _ hJ
        have cz : coefA 0 (ell + (b.sum : Int)) = 0 := by unfold coefA; norm_num
        replace c1 := c1 ρ
        replace c2 := c2 ρ
        replace c3 := c3 ρ
        clear h0 hm hp
        generalize (ell : ℝ) + (b.sum : Int) = J at *
        have hd : 2 * J + 1 ≠ 0 := by linarith
        have x1' : xiJ (-1) J * xiJ (-1) J * (2 * J + 1) = J := by rw [x1]; field_simp
        have x2' : xiJ 1 J * xiJ 1 J * (2 * J + 1) = J + 1 := by rw [x2]; field_simp
        rw [cz, e1, e2]
        have hρρ : (ρ : ℂ) * ρ = 1 := by rcases hρ with rfl | rfl <;> norm_num
        generalize xiJ (-1) J = y1 at *
        generalize xiJ 1 J = y2 at *
        generalize coefB (-1) J ρ = Bm at *
        generalize coefB 0 J ρ = B0 at *
        generalize coefB 1 J ρ = Bp at *
        generalize ang ell ρ 0 (intertwiner ell b) τ = R
        have s1 : y1 * y1 + y2 * y2 = 1 := by
          apply mul_left_cancel₀ hd; linear_combination x1' + x2'
        have s2 : (J + 1) * (y2 * y2) - J * (y1 * y1) = 1 := by
          apply mul_left_cancel₀ hd; linear_combination (J + 1) * x2' - J * x1'
        have s1c : (y1 : ℂ) * y1 + y2 * y2 = 1 := by exact_mod_cast s1
        have s2c : ((J : ℂ) + 1) * (y2 * y2) - J * (y1 * y1) = 1 := by exact_mod_cast s2
        have c1c : (w : ℂ) * Bm = -y2 := by exact_mod_cast c1
        have c2c : (w : ℂ) * Bp = y1 := by exact_mod_cast c2
        have c3c : (w : ℂ) * B0 = ρ := by exact_mod_cast c3
        have e3c : (J : ℂ) * Bm = -y1 := by exact_mod_cast e3
        have e4c : ((J : ℂ) + 1) * Bp = y2 := by exact_mod_cast e4
        have hwc : (w : ℂ) ≠ 0 := by exact_mod_cast hw
        push_cast
        generalize f (-1 :: b) = fm
        generalize f (0 :: b) = f0
        generalize f (1 :: b) = fp
        generalize f' (-1 :: b) = fm'
        generalize f' (0 :: b) = f0'
        generalize f' (1 :: b) = fp'
        generalize (w : ℂ) = w at *
        generalize (J : ℂ) = J at *
        generalize (y1 : ℂ) = y1 at *
        generalize (y2 : ℂ) = y2 at *
        generalize (Bm : ℂ) = Bm at *
        generalize (B0 : ℂ) = B0 at *
        generalize (Bp : ℂ) = Bp at *
        generalize (R : ℂ) = R at *
        generalize (ρ : ℂ) = ρ at *
        generalize (r : ℂ) = r at *
        have t1 : -(B0 * y2) = ρ * Bm := by apply mul_left_cancel₀ hwc; linear_combination -y2 * c3c - ρ * c1c
        have t2 : B0 * y1 = ρ * Bp := by apply mul_left_cancel₀ hwc; linear_combination y1 * c3c - ρ * c2c
        have t3 : -(Bm * y2) + Bp * y1 = ρ * B0 := by
          apply mul_left_cancel₀ hwc; linear_combination -y2 * c1c + y1 * c2c - ρ * c3c + s1c - hρρ
        have t4 : -(Bm * y2) * (J + 1) - Bp * y1 * J = ρ * B0 := by
          apply mul_left_cancel₀ hwc; linear_combination -y2 * (J + 1) * c1c - y1 * J * c2c - ρ * c3c + s2c - hρρ
        linear_combination Complex.I * R * (fm' - (J - 1) / r * fm) * t1 + Complex.I * R * (fp' + (J + 2) / r * fp) * t2 +
          Complex.I * R * f0' * t3 + Complex.I * R * f0 / r * t4 - ρ * Complex.I * R / r * fm * e3c + ρ * Complex.I * R / r * fp * e4c
      · have hz : (ell : ℝ) + (b.sum : Int) = 0 := le_antisymm (not_lt.1 hpos) hJ
        have ham : ¬Allowed ell (-1 :: b) := fun hh => hpos ((allowed_minus ell b h).1 hh)
        have ha0 : ¬Allowed ell (0 :: b) := fun hh => hpos ((allowed_zero ell b h).1 hh)
        have heig := inter_eig ell b hu h
        rw [hz] at heig
        norm_num at heig
        rw [ang_zero ell b.length _ heig ρ hρ τ hrb hτ]
        rw [zero b hb (-1) (by simp) ham 0 ρ (by simp) hρ3, zero b hb (-1) (by simp) ham ρ 0 hρ3 (by simp),
          zero b hb 0 (by simp) ha0 0 ρ (by simp) hρ3, zero b hb 0 (by simp) ha0 ρ 0 hρ3 (by simp),
          izero b hb (-1) (by simp) ham, izero b hb 0 (by simp) ha0]
        simp
    · have hn : ∀ a, ¬Allowed ell (a :: b) := fun a ha => h ((allowed_cons ell a b).1 ha).1
      simp only [izero b hb (-1) (by simp) (hn _), izero b hb 0 (by simp) (hn _), izero b hb 1 (by simp) (hn _),
        zero b hb (-1) (by simp) (hn _) 0 ρ (by simp) hρ3, zero b hb 0 (by simp) (hn _) 0 ρ (by simp) hρ3,
        zero b hb 1 (by simp) (hn _) 0 ρ (by simp) hρ3, zero b hb (-1) (by simp) (hn _) ρ 0 hρ3 (by simp),
        zero b hb 0 (by simp) (hn _) ρ 0 hρ3 (by simp), zero b hb 1 (by simp) (hn _) ρ 0 hρ3 (by simp)]
      simp

end Dedalus.Regularity
