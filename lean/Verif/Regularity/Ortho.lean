import Verif.Regularity.Lemmas
import Mathlib.Tactic.IntervalCases

/-!
# Orthonormality of the intertwiners
-/

namespace Dedalus.Regularity

theorem Unit3.cons {s : Int} {τ : List Int} (hs : s = -1 ∨ s = 0 ∨ s = 1) (h : Unit3 τ) : Unit3 (s :: τ) := by
  intro x hx
  rcases List.mem_cons.1 hx with rfl | hx
  · exact hs
  · exact h x hx

theorem Unit3.tail {s : Int} {τ : List Int} (h : Unit3 (s :: τ)) : Unit3 τ := fun x hx => h x (by simp [hx])

/-- eigenfunction of the squared angular momentum -/
def Eig (ell r : Nat) (lam : ℝ) (q : List Int → ℝ) : Prop :=
  ∀ σ : Int, (σ = 1 ∨ σ = -1) → ∀ τ : List Int, τ.length = r → Unit3 τ → ang ell (-σ) σ (ang ell σ 0 q) τ = -lam * q τ

/-- one more index -/
theorem eig_step (ell r : Nat) (q F : List Int → ℝ) (lam mu A : ℝ) (B : Int → ℝ) (hs : Supp ell 0 r q) (he : Eig ell r lam q)
    (hF0 : ∀ τ, τ.length = r → Unit3 τ → F (0 :: τ) = A * q τ)
    (hF1 : ∀ s τ, (s = 1 ∨ s = -1) → τ.length = r → Unit3 τ → F (s :: τ) = B s * ang ell s 0 q τ)
    (h1 : ∀ s, (s = 1 ∨ s = -1) → A + B s * lam = mu * B s)
    (h2 : ∀ s, (s = 1 ∨ s = -1) → (A + B (-s) * lam) + (B s + A) * lam = mu * A) : Eig ell (r + 1) mu F := by
  intro ρ hρ τ0 hr hu
  obtain ⟨s, τ, rfl⟩ : ∃ s τ, τ0 = s :: τ := by
    cases τ0 with
    | nil => simp at hr
    | cons s τ => exact ⟨s, τ, rfl⟩
  replace hr : τ.length = r := by simpa using hr
  have hs3 := hu s (by simp)
  replace hu := hu.tail
  have hρ' : -ρ = 1 ∨ -ρ = -1 := by omega
  have hρ0 : ρ ≠ 0 := by omega
  -- the first application
  have G0 : ∀ τ, τ.length = r → Unit3 τ → ang ell ρ 0 F (0 :: τ) = (B ρ + A) * ang ell ρ 0 q τ := by
    intro τ hr hu
    rw [ang_cons, if_neg (by omega), if_pos rfl, hF1 ρ τ hρ hr hu, add_zero,
      ang_congr ell ρ 0 _ (fun x => A * q x) r hρ (fun x h1 h2 => hF0 x h1 h2) τ hr hu, ang_smul]
    ring
  have Gm : ∀ τ, τ.length = r → Unit3 τ → ang ell ρ 0 F (-ρ :: τ) = -(A + B (-ρ) * lam) * q τ := by
    intro τ hr hu
    rw [ang_cons, if_pos rfl, if_neg (by omega), hF0 τ hr hu, zero_add,
      ang_congr ell ρ (-ρ) _ (fun x => B (-ρ) * ang ell (-ρ) 0 q x) r hρ (fun x h1 h2 => hF1 (-ρ) x hρ' h1 h2) τ hr hu, ang_smul]
    have := he (-ρ) hρ' τ hr hu
    rw [neg_neg] at this
    rw [this]
    ring
  have Gp : ∀ τ, τ.length = r → Unit3 τ → ang ell ρ 0 F (ρ :: τ) = B ρ * ang ell ρ ρ (ang ell ρ 0 q) τ := by
    intro τ hr hu
    rw [ang_cons, if_neg (by omega), if_neg hρ0, zero_add, zero_add, zero_add,
      ang_congr ell ρ ρ _ (fun x => B ρ * ang ell ρ 0 q x) r hρ (fun x h1 h2 => hF1 ρ x hρ h1 h2) τ hr hu, ang_smul]
  have hcases : s = 0 ∨ s = ρ ∨ s = -ρ := by omega
  rcases hcases with rfl | rfl | rfl
  · rw [ang_cons, if_neg (by omega), if_pos rfl, Gm τ hr hu, add_zero,
      ang_congr ell (-ρ) ρ _ (fun x => (B ρ + A) * ang ell ρ 0 q x) r hρ' (fun x h1 h2 => G0 x h1 h2) τ hr hu, ang_smul, he ρ hρ τ hr hu, hF0 τ hr hu]
    linear_combination -q τ * h2 ρ hρ
  · rw [ang_cons, if_pos (by omega), if_neg hρ0, G0 τ hr hu,
      ang_congr ell (-s) (s + s) _ (fun x => B s * ang ell s s (ang ell s 0 q) x) r hρ' (fun x h1 h2 => Gp x h1 h2) τ hr hu, ang_smul, hF1 s τ hρ hr hu]
    have hc := ang_comm ell s s hρ r (ang ell s 0 q) (by have := ang_supp ell s 0 hρ r q hs; rwa [zero_add] at this) τ hr hu
    rw [sub_self] at hc
    have hi : ang ell s 0 (ang ell (-s) s (ang ell s 0 q)) τ = -lam * ang ell s 0 q τ := by
      rw [ang_congr ell s 0 _ (fun x => -lam * q x) r hρ (fun x h1 h2 => he s hρ x h1 h2) τ hr hu, ang_smul]
    rw [hi] at hc
    have hss : (s : ℝ) * s = 1 := by rcases hρ with rfl | rfl <;> norm_num
    rw [hss] at hc
    linear_combination B s * hc - ang ell s 0 q τ * h1 s hρ
  · rw [ang_cons, if_neg (by omega), if_neg (by omega), zero_add, zero_add, add_neg_cancel,
      ang_congr ell (-ρ) 0 _ (fun x => -(A + B (-ρ) * lam) * q x) r hρ' (fun x h1 h2 => Gm x h1 h2) τ hr hu, ang_smul, hF1 (-ρ) τ hρ' hr hu]
    linear_combination -ang ell (-ρ) 0 q τ * h1 (-ρ) hρ'

/-- inner products with one more index -/
theorem ip_step (ell r : Nat) (q q' F F' : List Int → ℝ) (lam A A' : ℝ) (B B' : Int → ℝ) (he : Eig ell r lam q')
    (hF0 : ∀ τ, τ.length = r → Unit3 τ → F (0 :: τ) = A * q τ)
    (hF1 : ∀ s τ, (s = 1 ∨ s = -1) → τ.length = r → Unit3 τ → F (s :: τ) = B s * ang ell s 0 q τ)
    (hF0' : ∀ τ, τ.length = r → Unit3 τ → F' (0 :: τ) = A' * q' τ)
    (hF1' : ∀ s τ, (s = 1 ∨ s = -1) → τ.length = r → Unit3 τ → F' (s :: τ) = B' s * ang ell s 0 q' τ) :
    ip (r + 1) F F' = (A * A' + (B 1 * B' 1 + B (-1) * B' (-1)) * lam) * ip r q q' := by
  have hi : ∀ s : Int, (s = 1 ∨ s = -1) → ip r (ang ell s 0 q) (ang ell s 0 q') = lam * ip r q q' := by
    intro s hs
    rw [ang_adjoint ell s 0 hs, zero_add, ip_congr r q q _ (fun x => -lam * q' x) (fun _ _ _ => rfl) (fun x h1 h2 => he s hs x h1 h2), ip_smul_right]
    ring
  have hr : ∀ (c c' : ℝ) (f f' : List Int → ℝ), ip r (fun x => c * f x) (fun x => c' * f' x) = c * c' * ip r f f' := by
    intro c c' f f'; rw [ip_smul_left, ip_smul_right]; ring
  rw [ip, ip_congr r _ (fun x => B (-1) * ang ell (-1) 0 q x) _ (fun x => B' (-1) * ang ell (-1) 0 q' x) (fun x => hF1 (-1) x (by simp)) (fun x => hF1' (-1) x (by simp)),
    ip_congr r _ (fun x => A * q x) _ (fun x => A' * q' x) hF0 hF0',
    ip_congr r _ (fun x => B 1 * ang ell 1 0 q x) _ (fun x => B' 1 * ang ell 1 0 q' x) (fun x => hF1 1 x (by simp)) (fun x => hF1' 1 x (by simp)),
    hr, hr, hr, hi 1 (by simp), hi (-1) (by simp)]
  ring

/-! ### Allowed regularities -/

theorem badWalk_append (a : Int) : ∀ (l : List Int) (w : Int),
    badWalk w (l ++ [a]) = (badWalk w l || decide (w + l.sum + a < 0 ∨ (w + l.sum = 0 ∧ w + l.sum + a = 0)))
  | [], w => by
    simp only [List.nil_append, badWalk, List.sum_nil, add_zero, Bool.false_or]
    split <;> simp_all
  | r :: l, w => by
    simp only [List.cons_append, badWalk, List.sum_cons]
    split
    · simp
    · rw [badWalk_append a l (w + r)]
      simp only [add_assoc]

/-- the walk never gets forbidden -/
def Allowed (ell : Nat) (reg : List Int) : Prop := badWalk ell reg.reverse = false

theorem allowed_nil (ell : Nat) : Allowed ell [] := rfl

theorem allowed_cons (ell : Nat) (a : Int) (b : List Int) :
    Allowed ell (a :: b) ↔ Allowed ell b ∧ 0 ≤ ell + b.sum + a ∧ ¬((ell : Int) + b.sum = 0 ∧ ell + b.sum + a = 0) := by
  unfold Allowed
  rw [List.reverse_cons, badWalk_append]
  simp only [List.sum_reverse, Bool.or_eq_false_iff, decide_eq_false_iff_not]
  constructor
  · rintro ⟨h1, h2⟩
    exact ⟨h1, by omega, fun h => h2 (Or.inr h)⟩
  · rintro ⟨h1, h2, h3⟩
    refine ⟨h1, fun h => ?_⟩
    rcases h with h | h
    · omega
    · exact h3 h

theorem allowed_sum (ell : Nat) : ∀ reg, Allowed ell reg → 0 ≤ (ell : Int) + reg.sum
  | [], _ => by simp
  | a :: b, h => by
    have := ((allowed_cons ell a b).1 h).2.1
    rw [List.sum_cons]
    omega

theorem short_allowed (ell : Nat) : ∀ reg : List Int, Unit3 reg → reg.length ≤ ell → Allowed ell reg ∧ (ell : Int) - reg.length ≤ ell + reg.sum
  | [], _, _ => ⟨rfl, by simp⟩
  | a :: b, hu, h => by
    have ha := hu a (by simp)
    simp only [List.length_cons] at h
    obtain ⟨i1, i2⟩ := short_allowed ell b hu.tail (by omega)
    rw [List.sum_cons, List.length_cons]
    exact ⟨(allowed_cons ell a b).2 ⟨i1, by omega, by omega⟩, by push_cast; omega⟩

theorem forbidden_iff (ell : Nat) (reg : List Int) (hu : Unit3 reg) : forbiddenRegularity ell reg = false ↔ Allowed ell reg := by
  unfold forbiddenRegularity
  split
  · rename_i h
    exact ⟨fun _ => (short_allowed ell reg hu h).1, fun _ => rfl⟩
  · exact Iff.rfl

/-! ### Coefficients -/

/-- coefficient of the function -/
noncomputable def coefA (a : Int) (J : ℝ) : ℝ :=
  if a = -1 then J / √(J * (2 * J + 1)) else if a = 0 then 0 else (J + 1) / √((J + 1) * (2 * J + 1))

/-- coefficient of the derivative -/
noncomputable def coefB (a : Int) (J : ℝ) (s : Int) : ℝ :=
  if a = -1 then -1 / √(J * (2 * J + 1)) else if a = 0 then s / √(J * (J + 1)) else 1 / √((J + 1) * (2 * J + 1))

theorem coef_h1 (a : Int) (ha : a = -1 ∨ a = 0 ∨ a = 1) (J : ℝ) (s : Int) :
    coefA a J + coefB a J s * (J * (J + 1) / 2) = (J + a) * (J + a + 1) / 2 * coefB a J s := by
  unfold coefA coefB
  rcases ha with rfl | rfl | rfl
  · simp only [if_true]; push_cast; ring
  · norm_num; ring
  · norm_num; ring

theorem coef_h2 (a : Int) (ha : a = -1 ∨ a = 0 ∨ a = 1) (J : ℝ) (s : Int) :
    (coefA a J + coefB a J (-s) * (J * (J + 1) / 2)) + (coefB a J s + coefA a J) * (J * (J + 1) / 2) = (J + a) * (J + a + 1) / 2 * coefA a J := by
  unfold coefA coefB
  rcases ha with rfl | rfl | rfl
  · simp only [if_true]; push_cast; ring
  · norm_num; ring
  · norm_num; ring

theorem coef_ortho (a a' : Int) (ha : a = -1 ∨ a = 0 ∨ a = 1) (ha' : a' = -1 ∨ a' = 0 ∨ a' = 1) (J : ℝ) (hJ : 0 ≤ J)
    (h : a ≤ 0 → 0 < J) (h' : a' ≤ 0 → 0 < J) :
    coefA a J * coefA a' J + (coefB a J 1 * coefB a' J 1 + coefB a J (-1) * coefB a' J (-1)) * (J * (J + 1) / 2) = if a = a' then 1 else 0 := by
  have s3 : √((J + 1) * (2 * J + 1)) ^ 2 = (J + 1) * (2 * J + 1) := Real.sq_sqrt (by positivity)
  have p3 : √((J + 1) * (2 * J + 1)) ≠ 0 := (Real.sqrt_pos.2 (by positivity)).ne'
  have s1 : √(J * (2 * J + 1)) ^ 2 = J * (2 * J + 1) := Real.sq_sqrt (by positivity)
  have s2 : √(J * (J + 1)) ^ 2 = J * (J + 1) := Real.sq_sqrt (by positivity)
  have p1 : 0 < J → √(J * (2 * J + 1)) ≠ 0 := fun h => (Real.sqrt_pos.2 (by positivity)).ne'
  have p2 : 0 < J → √(J * (J + 1)) ≠ 0 := fun h => (Real.sqrt_pos.2 (by positivity)).ne'
  unfold coefA coefB
  generalize √((J + 1) * (2 * J + 1)) = x3 at *
  generalize √(J * (2 * J + 1)) = x1 at *
  generalize √(J * (J + 1)) = x2 at *
  have d1 : ¬((0 : Int) = -1) := by omega
  have d2 : ¬((1 : Int) = -1) := by omega
  have d3 : ¬((1 : Int) = 0) := by omega
  have d4 : ¬((-1 : Int) = 0) := by omega
  have d5 : ¬((-1 : Int) = 1) := by omega
  have d6 : ¬((0 : Int) = 1) := by omega
  rcases ha with rfl | rfl | rfl <;> rcases ha' with rfl | rfl | rfl <;>
    simp only [if_true, if_neg d1, if_neg d2, if_neg d3, if_neg d4, if_neg d5, if_neg d6, Int.cast_one, Int.cast_neg]
  · have := p1 (h (by omega)); field_simp; rw [s1]; ring
  · ring
  · ring
  · ring
  · have := p2 (h (by omega)); field_simp; rw [s2]; ring
  · ring
  · ring
  · ring
  · field_simp; rw [s3]; ring

/-! ### Intertwiners -/

theorem inter_forbidden (ell : Nat) (a : Int) (b : List Int) (hu : Unit3 (a :: b)) (s : Int) (τ : List Int) (h : ¬Allowed ell (a :: b)) :
    intertwiner ell (a :: b) (s :: τ) = 0 := by
  rw [intertwiner, if_pos]
  right
  by_contra hc
  exact h ((forbidden_iff ell _ hu).1 (by simpa using hc))

theorem inter_supp (ell : Nat) (b : List Int) : Supp ell 0 b.length (intertwiner ell b) := by
  intro τ hr _ hs
  cases b with
  | nil =>
    rw [List.length_eq_zero_iff.1 hr] at hs
    simp at hs
    omega
  | cons a b =>
    cases τ with
    | nil => simp at hr
    | cons s τ =>
      rw [intertwiner, if_pos]
      left
      unfold forbiddenSpin
      rw [add_zero] at hs
      exact decide_eq_true hs

theorem inter_cons (ell : Nat) (a : Int) (b : List Int) (hu : Unit3 (a :: b)) (h : Allowed ell (a :: b)) :
    (∀ τ, τ.length = b.length → Unit3 τ → intertwiner ell (a :: b) (0 :: τ) = coefA a (ell + (b.sum : Int)) * intertwiner ell b τ) ∧
    ∀ s τ, (s = 1 ∨ s = -1) → τ.length = b.length → Unit3 τ →
      intertwiner ell (a :: b) (s :: τ) = coefB a (ell + (b.sum : Int)) s * ang ell s 0 (intertwiner ell b) τ := by
  have hf : forbiddenRegularity ell (a :: b) = false := (forbidden_iff ell _ hu).2 h
  have hR : ∀ s τ, (∑ i ∈ Finset.range τ.length, ((if τ[i]? = some (-s) then -intertwiner ell b (τ.set i 0) else 0) +
      (if τ[i]? = some 0 then intertwiner ell b (τ.set i s) else 0))) - k ell s τ.sum * intertwiner ell b τ = ang ell s 0 (intertwiner ell b) τ := by
    intro s τ
    unfold ang
    rw [spinPart_sum, add_zero]
  constructor
  · intro τ hr hτ
    rw [intertwiner]
    by_cases hs : forbiddenSpin ell (0 :: τ)
    · rw [if_pos (Or.inl hs), inter_supp ell b τ hr hτ (by unfold forbiddenSpin at hs; simpa using hs)]
      ring
    · rw [if_neg (by simp [hs, hf])]
      simp only [hR]
      have h0 : ang ell 0 0 (intertwiner ell b) τ = 0 := by
        rw [← hR]
        have : k ell 0 τ.sum = 0 := by unfold k; simp
        rw [this]
        have h0 : ∀ i, ((if τ[i]? = some (-0 : Int) then -intertwiner ell b (τ.set i 0) else 0) + (if τ[i]? = some 0 then intertwiner ell b (τ.set i 0) else 0)) = 0 := by
          intro i; rw [neg_zero]; split <;> ring
        rw [Finset.sum_eq_zero fun i _ => h0 i]
        ring
      rw [h0]
      simp only [ne_eq, not_true_eq_false, if_false]
      unfold coefA
      split_ifs
      · ring
      · simp
      · ring
  · intro s τ hs1 hr hτ
    rw [intertwiner]
    by_cases hs : forbiddenSpin ell (s :: τ)
    · have hsup := ang_supp ell s 0 hs1 b.length _ (inter_supp ell b) τ hr hτ (by
        unfold forbiddenSpin at hs
        rw [List.sum_cons] at hs
        rw [show τ.sum + (0 + s) = s + τ.sum by ring]
        simpa using hs)
      rw [if_pos (Or.inl hs), hsup]
      ring
    · rw [if_neg (by simp [hs, hf])]
      have hs0 : s ≠ 0 := by omega
      simp only [hR, if_pos hs0]
      unfold coefB
      split_ifs <;> first | (simp; ring) | simp_all

theorem inter_eig (ell : Nat) : ∀ b : List Int, Unit3 b → Allowed ell b →
    Eig ell b.length (((ell : ℝ) + (b.sum : Int)) * ((ell : ℝ) + (b.sum : Int) + 1) / 2) (intertwiner ell b)
  | [], _, _ => by
    intro σ hσ τ hr _
    rw [List.length_eq_zero_iff.1 hr]
    simp only [ang, spinPart, intertwiner, List.sum_nil, zero_add, Int.cast_zero, add_zero]
    have h1 := k_adjoint ell σ 0 hσ
    have h2 := k_square ell σ 0 hσ (by simp)
    rw [zero_add] at h1
    rw [h1]
    push_cast at h2
    linear_combination -h2
  | a :: b, hu, h => by
    have hb := ((allowed_cons ell a b).1 h).1
    have ih := inter_eig ell b hu.tail hb
    obtain ⟨h0, h1⟩ := inter_cons ell a b hu h
    have ha := hu a (by simp)
    have := eig_step ell b.length (intertwiner ell b) (intertwiner ell (a :: b)) _ _ _ _ (inter_supp ell b) ih h0 h1
      (fun s _ => coef_h1 a ha _ s) (fun s _ => coef_h2 a ha _ s)
    rw [List.length_cons, List.sum_cons]
    convert this using 2
    push_cast
    ring

theorem inter_ortho (ell : Nat) : ∀ (b b' : List Int), b.length = b'.length → Unit3 b → Unit3 b' → Allowed ell b → Allowed ell b' →
    ip b.length (intertwiner ell b) (intertwiner ell b') = if b = b' then 1 else 0
  | [], [], _, _, _, _, _ => by simp [ip, intertwiner]
  | [], _ :: _, h, _, _, _, _ => by simp at h
  | _ :: _, [], h, _, _, _, _ => by simp at h
  | a :: b, a' :: b', hl, hu, hu', h, h' => by
    have hl' : b.length = b'.length := by simpa using hl
    obtain ⟨i1, i2, i3⟩ := (allowed_cons ell a b).1 h
    obtain ⟨i1', i2', i3'⟩ := (allowed_cons ell a' b').1 h'
    obtain ⟨f0, f1⟩ := inter_cons ell a b hu h
    obtain ⟨f0', f1'⟩ := inter_cons ell a' b' hu' h'
    have ih := inter_ortho ell b b' hl' hu.tail hu'.tail i1 i1'
    have ha := hu a (by simp)
    have ha' := hu' a' (by simp)
    rw [← hl'] at f0' f1'
    have he := inter_eig ell b' hu'.tail i1'
    rw [← hl'] at he
    rw [List.length_cons, ip_step ell b.length _ _ _ _ _ _ _ _ _ he f0 f1 f0' f1', ih]
    by_cases hbb : b = b'
    · subst hbb
      have hJ : (0 : Int) ≤ ell + b.sum := allowed_sum ell b i1
      have hJ' : (0 : ℝ) ≤ ell + (b.sum : Int) := by exact_mod_cast hJ
      have hpos : ∀ x : Int, x ≤ 0 → 0 ≤ (ell : Int) + b.sum + x → ¬((ell : Int) + b.sum = 0 ∧ ell + b.sum + x = 0) → (0 : ℝ) < ell + (b.sum : Int) := by
        intro x hx h1 h2
        have : (0 : Int) < ell + b.sum := by omega
        exact_mod_cast this
      rw [coef_ortho a a' ha ha' _ hJ' (fun hx => hpos a hx i2 i3) (fun hx => hpos a' hx i2' i3')]
      simp
    · rw [if_neg hbb, mul_zero, if_neg (fun h => hbb (List.cons.inj h).2)]

end Dedalus.Regularity
