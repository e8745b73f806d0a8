import Verif.Regularity.Model
import Mathlib.Tactic.Ring
import Mathlib.Tactic.Linarith
import Mathlib.Tactic.FieldSimp
import Mathlib.Tactic.LinearCombination

/-!
# Angular momentum algebra behind the intertwiners
-/

namespace Dedalus.Regularity

/-- spin part of the angular momentum -/
noncomputable def spinPart (σ : Int) (f : List Int → ℝ) : List Int → ℝ
  | [] => 0
  | t :: τ => (if t = -σ then -f (0 :: τ) else 0) + (if t = 0 then f (σ :: τ) else 0) + spinPart σ (fun τ' => f (t :: τ')) τ

/-- angular momentum, of class `w` to class `w + σ` -/
noncomputable def ang (ell : Nat) (σ w : Int) (f : List Int → ℝ) (τ : List Int) : ℝ :=
  spinPart σ f τ - k ell σ (τ.sum + w) * f τ

theorem ang_cons (ell : Nat) (σ w : Int) (f : List Int → ℝ) (t : Int) (τ : List Int) :
    ang ell σ w f (t :: τ) = (if t = -σ then -f (0 :: τ) else 0) + (if t = 0 then f (σ :: τ) else 0) +
      ang ell σ (w + t) (fun τ' => f (t :: τ')) τ := by
  unfold ang
  rw [spinPart, List.sum_cons, show t + τ.sum + w = τ.sum + (w + t) by ring]
  ring

/-- values -1, 0, 1 -/
def Unit3 (τ : List Int) : Prop := ∀ t ∈ τ, t = -1 ∨ t = 0 ∨ t = 1

theorem spinPart_sum (σ : Int) : ∀ (τ : List Int) (f : List Int → ℝ), spinPart σ f τ =
    ∑ i ∈ Finset.range τ.length, ((if τ[i]? = some (-σ) then -f (τ.set i 0) else 0) + (if τ[i]? = some 0 then f (τ.set i σ) else 0))
  | [], f => by simp [spinPart]
  | t :: τ, f => by
    rw [spinPart, List.length_cons, Finset.sum_range_succ', spinPart_sum σ τ]
    simp only [List.getElem?_cons_succ, List.set_cons_succ, List.getElem?_cons_zero, List.set_cons_zero, Option.some.injEq]
    ring

theorem spinPart_congr (σ : Int) : ∀ (τ : List Int) (f g : List Int → ℝ), (∀ τ', τ'.length = τ.length → f τ' = g τ') → spinPart σ f τ = spinPart σ g τ
  | [], f, g, _ => by simp [spinPart]
  | t :: τ, f, g, h => by
    rw [spinPart, spinPart, h (0 :: τ) (by simp), h (σ :: τ) (by simp), spinPart_congr σ τ _ _ fun τ' hτ => h (t :: τ') (by simp [hτ])]

theorem spinPart_add (σ : Int) : ∀ (τ : List Int) (f g : List Int → ℝ), spinPart σ (fun x => f x + g x) τ = spinPart σ f τ + spinPart σ g τ
  | [], f, g => by simp [spinPart]
  | t :: τ, f, g => by
    rw [spinPart, spinPart, spinPart, spinPart_add σ τ]
    split_ifs <;> ring

theorem spinPart_smul (σ : Int) (c : ℝ) : ∀ (τ : List Int) (f : List Int → ℝ), spinPart σ (fun x => c * f x) τ = c * spinPart σ f τ
  | [], f => by simp [spinPart]
  | t :: τ, f => by
    rw [spinPart, spinPart, spinPart_smul σ c τ]
    split_ifs <;> ring

theorem spinPart_zero (σ : Int) (τ : List Int) : spinPart σ (fun _ => 0) τ = 0 := by
  have := spinPart_smul σ 0 τ (fun _ => 0)
  simpa using this

/-- multiplication by a function of the sum -/
theorem spinPart_weight (σ : Int) : ∀ (τ : List Int) (c : Int → ℝ) (f : List Int → ℝ),
    spinPart σ (fun x => c x.sum * f x) τ = c (τ.sum + σ) * spinPart σ f τ
  | [], c, f => by simp [spinPart]
  | t :: τ, c, f => by
    rw [spinPart, spinPart]
    have := spinPart_weight σ τ (fun s => c (t + s)) (fun x => f (t :: x))
    simp only [List.sum_cons] at this ⊢
    rw [this, show t + (τ.sum + σ) = t + τ.sum + σ by ring]
    have e1 : (if t = -σ then -(c (0 + τ.sum) * f (0 :: τ)) else 0) = c (t + τ.sum + σ) * if t = -σ then -f (0 :: τ) else 0 := by
      split
      · rename_i h; rw [h, show -σ + τ.sum + σ = 0 + τ.sum by ring]; ring
      · ring
    have e2 : (if t = 0 then c (σ + τ.sum) * f (σ :: τ) else 0) = c (t + τ.sum + σ) * if t = 0 then f (σ :: τ) else 0 := by
      split
      · rename_i h; rw [h, show 0 + τ.sum + σ = σ + τ.sum by ring]
      · ring
    rw [e1, e2]
    ring

theorem spinPart_comm (σ : Int) (hσ : σ = 1 ∨ σ = -1) : ∀ (τ : List Int), Unit3 τ → ∀ f : List Int → ℝ,
    spinPart (-σ) (spinPart σ f) τ - spinPart σ (spinPart (-σ) f) τ = -(σ * τ.sum) * f τ
  | [], _, f => by simp [spinPart]
  | t :: τ, h, f => by
    have ht : t = -1 ∨ t = 0 ∨ t = 1 := h t (by simp)
    have ih := spinPart_comm σ hσ τ (fun x hx => h x (by simp [hx])) (fun x => f (t :: x))
    have hn : ∀ (s : Int) (g : List Int → ℝ), (fun τ' => spinPart s g (t :: τ')) = fun τ' =>
        ((if t = -s then -g (0 :: τ') else 0) + (if t = 0 then g (s :: τ') else 0)) + spinPart s (fun x => g (t :: x)) τ' := by
      intro s g; funext τ'; rw [spinPart]
    have hneg : ∀ (s : Int) (g : List Int → ℝ), spinPart s (fun x => -g x) τ = -spinPart s g τ := by
      intro s g
      have := spinPart_smul s (-1) τ g
      simpa using this
    have hd : ∀ (s : Int) (g : List Int → ℝ) (t : Int), spinPart s g (t :: τ) = (if t = -s then -g (0 :: τ) else 0) +
        (if t = 0 then g (s :: τ) else 0) + spinPart s (fun τ' => g (t :: τ')) τ := fun s g t => by rw [spinPart]
    rw [hd (-σ), hd σ (spinPart (-σ) f), hn σ f, hn (-σ) f, spinPart_add, spinPart_add, spinPart_add, spinPart_add]
    simp only [hd]
    rw [List.sum_cons, Int.cast_add]
    rcases hσ with rfl | rfl <;> rcases ht with rfl | rfl | rfl <;>
      norm_num [hneg, spinPart_zero] at ih ⊢ <;> linarith

/-- inner product of rank `r` -/
noncomputable def ip : Nat → (List Int → ℝ) → (List Int → ℝ) → ℝ
  | 0, f, g => f [] * g []
  | r + 1, f, g => ip r (fun τ => f (-1 :: τ)) (fun τ => g (-1 :: τ)) + ip r (fun τ => f (0 :: τ)) (fun τ => g (0 :: τ)) +
      ip r (fun τ => f (1 :: τ)) (fun τ => g (1 :: τ))

theorem ip_add_left : ∀ (r : Nat) (f g h : List Int → ℝ), ip r (fun x => f x + g x) h = ip r f h + ip r g h
  | 0, f, g, h => by simp only [ip]; ring
  | r + 1, f, g, h => by simp only [ip]; rw [ip_add_left, ip_add_left, ip_add_left]; ring

theorem ip_smul_left : ∀ (r : Nat) (c : ℝ) (f h : List Int → ℝ), ip r (fun x => c * f x) h = c * ip r f h
  | 0, c, f, h => by simp only [ip]; ring
  | r + 1, c, f, h => by simp only [ip]; rw [ip_smul_left, ip_smul_left, ip_smul_left]; ring

theorem ip_comm : ∀ (r : Nat) (f h : List Int → ℝ), ip r f h = ip r h f
  | 0, f, h => by simp only [ip]; ring
  | r + 1, f, h => by simp only [ip]; rw [ip_comm r (fun τ => f (-1 :: τ)), ip_comm r (fun τ => f (0 :: τ)), ip_comm r (fun τ => f (1 :: τ))]

theorem ip_smul_right (r : Nat) (c : ℝ) (f h : List Int → ℝ) : ip r f (fun x => c * h x) = c * ip r f h := by
  rw [ip_comm, ip_smul_left, ip_comm]

theorem ip_congr : ∀ (r : Nat) (f f' g g' : List Int → ℝ), (∀ τ, τ.length = r → Unit3 τ → f τ = f' τ) → (∀ τ, τ.length = r → Unit3 τ → g τ = g' τ) →
    ip r f g = ip r f' g'
  | 0, f, f', g, g', h1, h2 => by simp only [ip]; rw [h1 [] rfl (by simp [Unit3]), h2 [] rfl (by simp [Unit3])]
  | r + 1, f, f', g, g', h1, h2 => by
    simp only [ip]
    have hu : ∀ s τ, (s = -1 ∨ s = 0 ∨ s = 1) → Unit3 τ → Unit3 (s :: τ) := by
      intro s τ hs hτ t ht
      rcases List.mem_cons.1 ht with rfl | ht
      · exact hs
      · exact hτ t ht
    rw [ip_congr r _ _ _ _ (fun τ a b => h1 (-1 :: τ) (by simp [a]) (hu _ _ (by simp) b)) (fun τ a b => h2 (-1 :: τ) (by simp [a]) (hu _ _ (by simp) b)),
      ip_congr r _ _ _ _ (fun τ a b => h1 (0 :: τ) (by simp [a]) (hu _ _ (by simp) b)) (fun τ a b => h2 (0 :: τ) (by simp [a]) (hu _ _ (by simp) b)),
      ip_congr r _ _ _ _ (fun τ a b => h1 (1 :: τ) (by simp [a]) (hu _ _ (by simp) b)) (fun τ a b => h2 (1 :: τ) (by simp [a]) (hu _ _ (by simp) b))]

theorem ip_zero (r : Nat) (g : List Int → ℝ) : ip r (fun _ => 0) g = 0 := by
  have := ip_smul_left r 0 (fun _ => 0) g
  simpa using this

theorem spinPart_adjoint (σ : Int) (hσ : σ = 1 ∨ σ = -1) : ∀ (r : Nat) (f g : List Int → ℝ),
    ip r (spinPart σ f) g = -ip r f (spinPart (-σ) g)
  | 0, f, g => by simp [ip, spinPart]
  | r + 1, f, g => by
    have ih := fun f g => spinPart_adjoint σ hσ r f g
    have hc : ∀ (s t : Int) (g : List Int → ℝ), (fun τ' => spinPart s g (t :: τ')) = fun τ' =>
        ((if t = -s then -1 else 0) * g (0 :: τ') + (if t = 0 then 1 else 0) * g (s :: τ')) + spinPart s (fun x => g (t :: x)) τ' := by
      intro s t g; funext τ'; rw [spinPart]; split_ifs <;> ring
    have hr : ∀ (f g h : List Int → ℝ), ip r f (fun x => g x + h x) = ip r f g + ip r f h := by
      intro f g h; rw [ip_comm, ip_add_left, ip_comm r g, ip_comm r h]
    simp only [ip, hc, ip_add_left, ip_smul_left, ih, hr, ip_smul_right]
    rcases hσ with rfl | rfl <;> norm_num <;> ring

theorem k_adjoint (ell : Nat) (σ s : Int) (hσ : σ = 1 ∨ σ = -1) : k ell (-σ) (s + σ) = -k ell σ s := by
  unfold k
  push_cast
  have : ((ell : ℝ) - (s + σ) * -σ) * (ell + (s + σ) * -σ + 1) / 2 = (ell - s * σ) * (ell + s * σ + 1) / 2 := by
    rcases hσ with rfl | rfl <;> norm_num <;> ring
  rw [this]
  ring

theorem ang_adjoint (ell : Nat) (σ w : Int) (hσ : σ = 1 ∨ σ = -1) (r : Nat) (f g : List Int → ℝ) :
    ip r (ang ell σ w f) g = -ip r f (ang ell (-σ) (w + σ) g) := by
  have e1 : (ang ell σ w f) = fun τ => spinPart σ f τ + (-1) * (k ell σ (τ.sum + w) * f τ) := by
    funext τ; unfold ang; ring
  have e2 : (ang ell (-σ) (w + σ) g) = fun τ => spinPart (-σ) g τ + k ell σ (τ.sum + w) * g τ := by
    funext τ; unfold ang; rw [← add_assoc, k_adjoint ell σ _ hσ]; ring
  have hm : ∀ (r : Nat) (c : List Int → ℝ) (f g : List Int → ℝ), ip r (fun τ => c τ * f τ) g = ip r f (fun τ => c τ * g τ) := by
    intro r
    induction r with
    | zero => intro c f g; simp only [ip]; ring
    | succ r ih => intro c f g; simp only [ip]; rw [ih (fun τ => c (-1 :: τ)), ih (fun τ => c (0 :: τ)), ih (fun τ => c (1 :: τ))]
  rw [e1, e2, ip_add_left, ip_smul_left, spinPart_adjoint σ hσ, ip_comm r f (fun τ => spinPart (-σ) g τ + _), ip_add_left, ip_comm r _ f,
    ip_comm r (fun τ => k ell σ (τ.sum + w) * g τ), hm r (fun τ => k ell σ (τ.sum + w)) f g]
  ring

theorem k_square (ell : Nat) (σ s : Int) (hσ : σ = 1 ∨ σ = -1) (hs : |s| ≤ ell) : k ell σ s ^ 2 = (ell - s * σ) * (ell + s * σ + 1) / 2 := by
  have h := abs_le.1 hs
  have h1 : (-(ell : ℝ)) ≤ s := by exact_mod_cast h.1
  have h2 : (s : ℝ) ≤ ell := by exact_mod_cast h.2
  unfold k
  rw [mul_pow, Real.sq_sqrt]
  · rcases hσ with rfl | rfl <;> norm_num
  · rcases hσ with rfl | rfl
    · have := mul_nonneg (sub_nonneg.2 h2) (show (0 : ℝ) ≤ ell + s + 1 by linarith)
      norm_num; linarith
    · have := mul_nonneg (show (0 : ℝ) ≤ ell + s by linarith) (show (0 : ℝ) ≤ ell - s + 1 by linarith)
      norm_num
      nlinarith

/-- functions of class `w` that vanish outside the admissible weights -/
def Supp (ell : Nat) (w : Int) (r : Nat) (f : List Int → ℝ) : Prop := ∀ τ, τ.length = r → Unit3 τ → (ell : Int) < |τ.sum + w| → f τ = 0

theorem ang_comm (ell : Nat) (σ w : Int) (hσ : σ = 1 ∨ σ = -1) (r : Nat) (f : List Int → ℝ) (hf : Supp ell w r f) (τ : List Int) (hr : τ.length = r) (hu : Unit3 τ) :
    ang ell (-σ) (w + σ) (ang ell σ w f) τ - ang ell σ (w - σ) (ang ell (-σ) w f) τ = σ * w * f τ := by
  have e : ∀ (s w : Int) (f : List Int → ℝ), ang ell s w f = fun τ => spinPart s f τ + (-1) * (k ell s (τ.sum + w) * f τ) := by
    intro s w f; funext τ; unfold ang; ring
  have c := spinPart_comm σ hσ τ hu f
  unfold ang at *
  have a1 : spinPart (-σ) (fun τ => spinPart σ f τ - k ell σ (τ.sum + w) * f τ) τ =
      spinPart (-σ) (spinPart σ f) τ - k ell σ (τ.sum - σ + w) * spinPart (-σ) f τ := by
    have h1 := spinPart_add (-σ) τ (spinPart σ f) (fun x => (-1) * (k ell σ (x.sum + w) * f x))
    rw [spinPart_smul, spinPart_weight (-σ) τ (fun s => k ell σ (s + w)) f] at h1
    rw [show (fun τ : List Int => spinPart σ f τ - k ell σ (τ.sum + w) * f τ) = fun x => spinPart σ f x + (-1) * (k ell σ (x.sum + w) * f x) by funext x; ring, h1]
    rw [← sub_eq_add_neg]; ring
  have a2 : spinPart σ (fun τ => spinPart (-σ) f τ - k ell (-σ) (τ.sum + w) * f τ) τ =
      spinPart σ (spinPart (-σ) f) τ - k ell (-σ) (τ.sum + σ + w) * spinPart σ f τ := by
    have h1 := spinPart_add σ τ (spinPart (-σ) f) (fun x => (-1) * (k ell (-σ) (x.sum + w) * f x))
    rw [spinPart_smul, spinPart_weight σ τ (fun s => k ell (-σ) (s + w)) f] at h1
    rw [show (fun τ : List Int => spinPart (-σ) f τ - k ell (-σ) (τ.sum + w) * f τ) = fun x => spinPart (-σ) f x + (-1) * (k ell (-σ) (x.sum + w) * f x) by funext x; ring, h1]
    ring
  rw [a1, a2]
  have k1 : k ell (-σ) (τ.sum + (w + σ)) = -k ell σ (τ.sum + w) := by rw [← add_assoc, k_adjoint ell σ _ hσ]
  have k2 : k ell σ (τ.sum + (w - σ)) = -k ell (-σ) (τ.sum + w) := by
    have := k_adjoint ell (-σ) (τ.sum + w) (by omega)
    rw [neg_neg] at this
    rw [← this]; congr 1; ring
  have k3 : τ.sum - σ + w = τ.sum + (w - σ) := by ring
  have k4 : τ.sum + σ + w = τ.sum + (w + σ) := by ring
  rw [k3, k4, k1, k2]
  by_cases hs : |τ.sum + w| ≤ ell
  · have q1 := k_square ell σ (τ.sum + w) hσ hs
    have q2 := k_square ell (-σ) (τ.sum + w) (by omega) hs
    rw [Int.cast_add] at q1 q2
    rw [Int.cast_neg] at q2
    have hq : k ell (-σ) (τ.sum + w) ^ 2 - k ell σ (τ.sum + w) ^ 2 = σ * (τ.sum + w) := by
      rw [q1, q2]; ring
    linear_combination c + f τ * hq
  · have h0 := hf τ hr hu (not_le.1 hs)
    rw [h0] at c ⊢
    linear_combination c

theorem ang_supp (ell : Nat) (σ w : Int) (hσ : σ = 1 ∨ σ = -1) (r : Nat) (f : List Int → ℝ) (hf : Supp ell w r f) : Supp ell (w + σ) r (ang ell σ w f) := by
  intro τ hr hu hs
  unfold ang
  have h1 : spinPart σ f τ = 0 := by
    have : ∀ (r : Nat) (w : Int) (f : List Int → ℝ), Supp ell w r f → ∀ τ, τ.length = r → Unit3 τ → (ell : Int) < |τ.sum + (w + σ)| → spinPart σ f τ = 0 := by
      intro r
      induction r with
      | zero => intro w f _ τ hr _ _; rw [List.length_eq_zero_iff.1 hr]; rfl
      | succ r ih =>
        intro w f hf τ hr hu hs
        obtain ⟨t, τ', rfl⟩ : ∃ t τ', τ = t :: τ' := by
          cases τ with
          | nil => simp at hr
          | cons t τ' => exact ⟨t, τ', rfl⟩
        have hr' : τ'.length = r := by simpa using hr
        have hu' : Unit3 τ' := fun x hx => hu x (by simp [hx])
        have hcons : ∀ s, (s = -1 ∨ s = 0 ∨ s = 1) → Unit3 (s :: τ') := by
          intro s hs x hx
          rcases List.mem_cons.1 hx with rfl | hx
          · exact hs
          · exact hu' x hx
        rw [List.sum_cons] at hs
        rw [spinPart, ih (w + t) (fun x => f (t :: x)) (fun x hx hux hsx => hf (t :: x) (by simp [hx]) (by
            intro y hy
            rcases List.mem_cons.1 hy with rfl | hy
            · exact hu y (by simp)
            · exact hux y hy) (by rw [List.sum_cons, show t + x.sum + w = x.sum + (w + t) by ring]; exact hsx)) τ' hr' hu' (by
            rw [show τ'.sum + (w + t + σ) = t + τ'.sum + (w + σ) by ring]; exact hs), add_zero]
        split
        · rename_i h
          rw [hf (0 :: τ') (by simp [hr']) (hcons 0 (by simp)) (by rw [List.sum_cons, show 0 + τ'.sum + w = t + τ'.sum + (w + σ) by rw [h]; ring]; exact hs)]
          simp [h]
          rcases hσ with rfl | rfl <;> simp
        · split
          · rename_i h
            rw [hf (σ :: τ') (by simp [hr']) (hcons σ (by omega)) (by rw [List.sum_cons, show σ + τ'.sum + w = t + τ'.sum + (w + σ) by rw [h]; ring]; exact hs)]
            simp
          · simp
    exact this r w f hf τ hr hu hs
  rw [h1]
  by_cases hs' : (ell : Int) < |τ.sum + w|
  · rw [hf τ hr hu hs']; ring
  · have hs'' := abs_le.1 (not_lt.1 hs')
    have : k ell σ (τ.sum + w) = 0 := by
      unfold k
      rcases hσ with rfl | rfl
      · have : τ.sum + w = ell := by
          by_contra hne
          apply absurd hs
          rw [not_lt, abs_le]
          constructor <;> omega
        rw [this]; simp
      · have : τ.sum + w = -ell := by
          by_contra hne
          apply absurd hs
          rw [not_lt, abs_le]
          constructor <;> omega
        rw [this]; push_cast; norm_num
    rw [this]; ring

theorem ang_smul (ell : Nat) (σ w : Int) (c : ℝ) (f : List Int → ℝ) (τ : List Int) : ang ell σ w (fun x => c * f x) τ = c * ang ell σ w f τ := by
  unfold ang; rw [spinPart_smul]; ring

theorem ang_congr (ell : Nat) (σ w : Int) (f g : List Int → ℝ) (r : Nat) (hσ : σ = 1 ∨ σ = -1) (h : ∀ τ, τ.length = r → Unit3 τ → f τ = g τ) (τ : List Int) (hr : τ.length = r) (hu : Unit3 τ) :
    ang ell σ w f τ = ang ell σ w g τ := by
  have : ∀ (r : Nat) (f g : List Int → ℝ), (∀ τ, τ.length = r → Unit3 τ → f τ = g τ) → ∀ τ : List Int, τ.length = r → Unit3 τ → spinPart σ f τ = spinPart σ g τ := by
    intro r
    induction r with
    | zero => intro f g _ τ hr _; rw [List.length_eq_zero_iff.1 hr]; rfl
    | succ r ih =>
      intro f g h τ hr hu
      cases τ with
      | nil => simp at hr
      | cons t τ' =>
        have hr' : τ'.length = r := by simpa using hr
        have hu' : Unit3 τ' := fun x hx => hu x (by simp [hx])
        have hcons : ∀ (s : Int) (x : List Int), (s = -1 ∨ s = 0 ∨ s = 1) → Unit3 x → Unit3 (s :: x) := by
          intro s x hs hx y hy
          rcases List.mem_cons.1 hy with rfl | hy
          · exact hs
          · exact hx y hy
        rw [spinPart, spinPart, ih _ (fun x => g (t :: x)) (fun x hx hux => h (t :: x) (by simp [hx]) (hcons t x (hu t (by simp)) hux)) τ' hr' hu',
          h (0 :: τ') (by simp [hr']) (hcons 0 _ (by simp) hu'), h (σ :: τ') (by simp [hr']) (hcons σ _ (by omega) hu')]
  unfold ang
  rw [this r f g h τ hr hu, h τ hr hu]

end Dedalus.Regularity
