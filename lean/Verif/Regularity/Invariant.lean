import Verif.Regularity.Gradient

/-!
# Maps of tensors that commute with rotations keep the degree of the components
-/

namespace Dedalus.Regularity

/-- a map of tensors of rank `rIn` to tensors of rank `rOut` that commutes with rotations -/
structure Invariant (ell rIn rOut : Nat) (Φ : (List Int → ℝ) → List Int → ℝ) : Prop where
  smul : ∀ c q τ, Φ (fun t => c * q t) τ = c * Φ q τ
  congr : ∀ q q', (∀ t ∈ T rIn, q t = q' t) → ∀ τ ∈ T rOut, Φ q τ = Φ q' τ
  supp : ∀ q, Supp ell 0 rIn q → Supp ell 0 rOut (Φ q)
  ang : ∀ σ w, (σ = 1 ∨ σ = -1) → ∀ q, ∀ τ ∈ T rOut, Regularity.ang ell σ w (Φ q) τ = Φ (Regularity.ang ell σ w q) τ

theorem Invariant.eig {ell rIn rOut : Nat} {Φ : (List Int → ℝ) → List Int → ℝ} (h : Invariant ell rIn rOut Φ) (lam : ℝ) (q : List Int → ℝ) (hq : Eig ell rIn lam q) : Eig ell rOut lam (Φ q) := by
  intro σ hσ τ hr hu
  have hτ : τ ∈ T rOut := (mem_T rOut τ).2 ⟨hr, hu⟩
  rw [ang_congr ell (-σ) σ _ (Φ (Regularity.ang ell σ 0 q)) rOut (by omega) (fun t h1 h2 => h.ang σ 0 hσ q t ((mem_T _ _).2 ⟨h1, h2⟩)) τ hr hu,
    h.ang (-σ) σ (by omega) _ τ hτ, h.congr _ (fun t => -lam * q t) (fun t ht => hq σ hσ t ((mem_T _ _).1 ht).1 ((mem_T _ _).1 ht).2) τ hτ, h.smul]

theorem eig_ortho (ell r : Nat) (f g : List Int → ℝ) (lam mu : ℝ) (hf : Eig ell r lam f) (hg : Eig ell r mu g) (hne : lam ≠ mu) : ip r f g = 0 := by
  have key : ∀ (f g : List Int → ℝ) (mu : ℝ), Eig ell r mu g → ip r (ang ell 1 0 f) (ang ell 1 0 g) = mu * ip r f g := by
    intro f g mu hg
    rw [ang_adjoint ell 1 0 (Or.inl rfl), zero_add, ip_congr r f f _ (fun x => -mu * g x) (fun _ _ _ => rfl) (fun x h1 h2 => hg 1 (Or.inl rfl) x h1 h2), ip_smul_right]
    ring
  have h1 := key f g mu hg
  have h2 := key g f lam hf
  rw [ip_comm, h1, ip_comm r g f] at h2
  have : (lam - mu) * ip r f g = 0 := by linarith
  rcases mul_eq_zero.1 this with h | h
  · exact absurd (sub_eq_zero.1 h) hne
  · exact h

theorem J_inj (ell : Nat) (b b' : List Int) (h : Allowed ell b) (h' : Allowed ell b')
    (e : ((ell : ℝ) + (b.sum : Int)) * ((ell : ℝ) + (b.sum : Int) + 1) / 2 = ((ell : ℝ) + (b'.sum : Int)) * ((ell : ℝ) + (b'.sum : Int) + 1) / 2) : b.sum = b'.sum := by
  have h1 := J_nonneg ell b h
  have h2 := J_nonneg ell b' h'
  set x := (ell : ℝ) + (b.sum : Int)
  set y := (ell : ℝ) + (b'.sum : Int)
  have : (x - y) * (x + y + 1) = 0 := by linarith
  rcases mul_eq_zero.1 this with h | h
  · have : x = y := by linarith
    have : ((b.sum : Int) : ℝ) = (b'.sum : Int) := by simpa [x, y] using this
    exact_mod_cast this
  · exfalso; linarith

/-- the coefficients in the components -/
noncomputable def conj (ell rOut : Nat) (Φ : (List Int → ℝ) → List Int → ℝ) (b' b : List Int) : ℝ := ∑ t ∈ T rOut, intertwiner ell b' t * Φ (intertwiner ell b) t

theorem Invariant.degree {ell rIn rOut : Nat} {Φ : (List Int → ℝ) → List Int → ℝ} (h : Invariant ell rIn rOut Φ) (b' b : List Int) (hb' : b' ∈ T rOut) (hb : b ∈ T rIn)
    (hne : b'.sum ≠ b.sum) : conj ell rOut Φ b' b = 0 := by
  obtain ⟨l', u'⟩ := (mem_T _ _).1 hb'
  obtain ⟨l, u⟩ := (mem_T _ _).1 hb
  by_cases A' : Allowed ell b'
  · by_cases A : Allowed ell b
    · have e' := inter_eig ell b' u' A'
      have e := h.eig _ _ (l ▸ inter_eig ell b u A)
      rw [l'] at e'
      have := eig_ortho ell rOut _ _ _ _ e' e (fun hh => hne (J_inj ell b' b A' A hh))
      rw [ip_tot, tot_sum] at this
      exact this
    · apply Finset.sum_eq_zero
      intro t ht
      rw [h.congr (intertwiner ell b) (fun t => 0 * intertwiner ell b t) (fun x hx => by rw [inter_tail ell b u A x (by rw [((mem_T _ _).1 hx).1, l])]; ring) t ht, h.smul]
      ring
  · apply Finset.sum_eq_zero
    intro t ht
    rw [inter_tail ell b' u' A' t (by rw [((mem_T _ _).1 ht).1, l'])]
    ring

theorem Invariant.expand {ell rIn rOut : Nat} {Φ : (List Int → ℝ) → List Int → ℝ} (h : Invariant ell rIn rOut Φ) (b : List Int) (hb : b ∈ T rIn) (τ : List Int) (hτ : τ ∈ T rOut) :
    Φ (intertwiner ell b) τ = ∑ b' ∈ T rOut, intertwiner ell b' τ * conj ell rOut Φ b' b := by
  obtain ⟨l, u⟩ := (mem_T _ _).1 hb
  have hs : Supp ell 0 rOut (Φ (intertwiner ell b)) := h.supp _ (l ▸ inter_supp ell b)
  have hz : ∀ t ∈ T rOut, (ell : Int) < |t.sum| → Φ (intertwiner ell b) t = 0 := fun t ht h1 => hs t ((mem_T _ _).1 ht).1 ((mem_T _ _).1 ht).2 (by simpa using h1)
  have hf : ∑ b' ∈ T rOut, intertwiner ell b' τ * conj ell rOut Φ b' b =
      ∑ b' ∈ (T rOut).filter (fun t => badWalk ell t.reverse = false), intertwiner ell b' τ * conj ell rOut Φ b' b := by
    rw [Finset.sum_filter]
    apply Finset.sum_congr rfl
    intro b' hb'
    split
    · rfl
    · rename_i hA
      rw [inter_tail ell b' ((mem_T _ _).1 hb').2 hA τ (by rw [((mem_T _ _).1 hτ).1, ((mem_T _ _).1 hb').1])]
      ring
  rw [hf]
  by_cases hb2 : |τ.sum| ≤ (ell : Int)
  · unfold conj
    simp only [Finset.mul_sum]
    rw [Finset.sum_comm]
    rw [Finset.sum_eq_single τ]
    · have := inter_complete ell rOut τ τ hτ hτ hb2 hb2
      rw [if_pos rfl] at this
      have e : ∑ a ∈ (T rOut).filter (fun t => badWalk ell t.reverse = false), intertwiner ell a τ * (intertwiner ell a τ * Φ (intertwiner ell b) τ) =
          (∑ a ∈ (T rOut).filter (fun t => badWalk ell t.reverse = false), intertwiner ell a τ * intertwiner ell a τ) * Φ (intertwiner ell b) τ := by
        rw [Finset.sum_mul]
        exact Finset.sum_congr rfl fun a _ => by ring
      rw [e, this, one_mul]
    · intro t ht hne
      by_cases h2 : |t.sum| ≤ (ell : Int)
      · have := inter_complete ell rOut τ t hτ ht hb2 h2
        rw [if_neg (Ne.symm hne)] at this
        have e : ∑ a ∈ (T rOut).filter (fun t => badWalk ell t.reverse = false), intertwiner ell a τ * (intertwiner ell a t * Φ (intertwiner ell b) t) =
            (∑ a ∈ (T rOut).filter (fun t => badWalk ell t.reverse = false), intertwiner ell a τ * intertwiner ell a t) * Φ (intertwiner ell b) t := by
          rw [Finset.sum_mul]
          exact Finset.sum_congr rfl fun a _ => by ring
        rw [e, this, zero_mul]
      · apply Finset.sum_eq_zero
        intro a _
        rw [hz t ht (not_le.1 h2)]
        ring
    · intro hh; exact absurd hτ hh
  · rw [hz τ hτ (not_le.1 hb2)]
    symm
    apply Finset.sum_eq_zero
    intro a ha
    have hb3 := (mem_T _ _).1 (Finset.mem_filter.1 ha).1
    have := inter_supp ell a τ (by rw [((mem_T _ _).1 hτ).1, hb3.1]) ((mem_T _ _).1 hτ).2 (by simpa using hb2)
    rw [this]
    ring

/-- the map on fields -/
theorem Invariant.field {ell rIn rOut : Nat} {Φ : (List Int → ℝ) → List Int → ℝ} (h : Invariant ell rIn rOut Φ) {C : Type*} (R : Int → (Nat → ℂ) → C → ℂ) (r : C)
    (hR : ∀ deg (x : List Int → ℂ) (c : List Int → Nat → ℂ), R deg (fun n => ∑ b ∈ T rIn, x b * c b n) r = ∑ b ∈ T rIn, x b * R deg (c b) r)
    (c : List Int → Nat → ℂ) (τ : List Int) (hτ : τ ∈ T rOut) :
    mix ell rOut (fun b' => R b'.sum (fun n => ∑ b ∈ T rIn, (conj ell rOut Φ b' b : ℂ) * c b n) r) τ =
      ∑ b ∈ T rIn, (Φ (intertwiner ell b) τ : ℂ) * R b.sum (c b) r := by
  unfold mix
  simp only [hR, Finset.mul_sum]
  rw [Finset.sum_comm]
  apply Finset.sum_congr rfl
  intro b hb
  rw [h.expand b hb τ hτ]
  push_cast
  rw [Finset.sum_mul]
  apply Finset.sum_congr rfl
  intro b' hb'
  by_cases e : b'.sum = b.sum
  · rw [e]; ring
  · rw [h.degree b' b hb' hb e]; simp

end Dedalus.Regularity
