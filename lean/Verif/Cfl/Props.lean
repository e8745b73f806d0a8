import Verif.Cfl.Spec
import Verif.Flow.Props
import Mathlib.Tactic.Linarith
import Mathlib.Tactic.Positivity
import Mathlib.Tactic.FieldSimp
import Mathlib.Tactic.Ring
import Mathlib.Analysis.SpecialFunctions.Trigonometric.Deriv

/-!
# C83: the advective timestep limit
-/

namespace Dedalus.Cfl

theorem gradient_ok {n : ℕ} (h : 3 ≤ n) (f : ℕ → ℝ) : gradient n f = .ok (difference n f) := by
  unfold gradient
  rw [if_neg (by omega)]
  congr 1
  funext i
  unfold difference
  split_ifs <;> ring

theorem along_map {α : Type} (axis : ℕ) (l : List α) (f : α → ℝ) (p : ℕ → ℕ) (k : α) (h : l[p axis]? = some k) :
    along axis (l.map f) p = some (f k) := by
  simp [along, List.getElem?_map, h]

theorem spacing_ok (loc : ℕ → ℕ → List ℕ) (i : ℕ) (b : IBasis) (hN : 3 ≤ b.N)
    (hc : b.kind = .chebyshevT → b.axis = i) (p g : ℕ → ℕ) (h : (loc b.axis b.N)[p b.axis]? = some (g b.axis)) :
    ∃ s, b.spacing loc i = .ok s ∧ s p = some (intervalSpacing b (g b.axis)) := by
  have hN0 : (b.N : ℝ) ≠ 0 := by
    have : b.N ≠ 0 := by omega
    exact_mod_cast this
  unfold IBasis.spacing
  rw [gradient_ok hN]
  cases hk : b.kind with
  | chebyshevT =>
    have ha := hc hk
    simp only [ha, if_true, List.length_map]
    refine ⟨_, rfl, ?_⟩
    rw [ha] at h
    rw [along_map _ _ _ _ _ h]
    simp only [intervalSpacing, hk, IBasis.stretch, Option.some.injEq]
    have : Real.pi * ((g i : ℝ) + 1 / 2) / b.N = Real.pi * (2 * (g i : ℝ) + 1) / (2 * b.N) := by
      field_simp
    rw [this]
    ring
  | fourier =>
    simp only
    refine ⟨_, rfl, ?_⟩
    rw [List.map_map, along_map _ _ _ _ _ h]
    simp only [intervalSpacing, hk, IBasis.stretch, Function.comp, Option.some.injEq]
    have := Real.pi_ne_zero
    field_simp
  | jacobi =>
    simp only
    refine ⟨_, rfl, ?_⟩
    rw [along_map _ _ _ _ _ h]
    simp only [intervalSpacing, hk, Option.some.injEq]
    ring

theorem over_rate (v : ℝ) (s : Option ℝ) : over v s = (Dir.mk v s).rate := by
  cases s <;> rfl

theorem cart_ok (loc : ℕ → ℕ → List ℕ) (p g : ℕ → ℕ) (bs : List (Option IBasis)) : ∀ (i : ℕ) (u : ℕ → ℝ),
    cartResolved i bs → (∀ b, some b ∈ bs → (loc b.axis b.N)[p b.axis]? = some (g b.axis)) →
    ∃ l, cartSpacing loc i bs = .ok l ∧ cartSum u p l = ((cartDirs g u bs).map Dir.rate).sum := by
  induction bs with
  | nil => intro i u _ _; exact ⟨[], rfl, rfl⟩
  | cons b bs ih =>
    intro i u hr hat
    cases b with
    | none =>
      obtain ⟨l, h1, h2⟩ := ih (i + 1) (fun k => u (k + 1)) hr (fun b hb => hat b (by simp [hb]))
      refine ⟨(fun _ => none) :: l, by simp only [cartSpacing, h1], ?_⟩
      simp only [cartSum, cartDirs, List.map_cons, List.sum_cons, h2, over_rate]
      rfl
    | some b =>
      obtain ⟨hN, hc, hr⟩ := hr
      obtain ⟨l, h1, h2⟩ := ih (i + 1) (fun k => u (k + 1)) hr (fun b hb => hat b (by simp [hb]))
      obtain ⟨s, hs, hsp⟩ := spacing_ok loc i b hN hc p g (hat b (by simp))
      refine ⟨s :: l, by simp only [cartSpacing, hs, h1], ?_⟩
      simp only [cartSum, cartDirs, List.map_cons, List.sum_cons, h2, over_rate, hsp]
      rfl

theorem gradientOrInf_ok {n : ℕ} (h : n = 1 ∨ 3 ≤ n) (f : ℕ → ℝ) :
    gradientOrInf n f = .ok fun k => if n = 1 then none else some (difference n f k) := by
  unfold gradientOrInf
  rcases h with rfl | h
  · simp
  · have : n ≠ 1 := by omega
    simp [this, gradient_ok h]

/-- **C83.** On every process, at every local grid point, the frequency is the sum over the directions of speed over
spacing at the global index of that point; nothing depends on how the grid is distributed. -/
theorem frequency_exact (loc : ℕ → ℕ → List ℕ) (p g : ℕ → ℕ) (ss : List Space) (u : ℕ → ℝ)
    (hr : ∀ s ∈ ss, s.Resolved) (hat : ∀ s ∈ ss, At loc p g s) :
    frequency loc p u ss = .ok ((allDirs g u ss).map Dir.rate).sum := by
  induction ss generalizing u with
  | nil => rfl
  | cons s ss ih =>
    have h2 := ih (fun i => u (i + s.dim)) (fun t ht => hr t (by simp [ht])) (fun t ht => hat t (by simp [ht]))
    have h1 : frequencyOne loc p u s = .ok ((dirs g u s).map Dir.rate).sum := by
      have hrs := hr s (by simp)
      have has := hat s (by simp)
      cases s with
      | cart bs =>
        obtain ⟨l, e1, e2⟩ := cart_ok loc p g bs 0 u hrs has
        simp only [frequencyOne, e1, e2]
        rfl
      | polar disk b =>
        obtain ⟨a1, a2⟩ := has
        simp only [frequencyOne, polarSpacing, gradient_ok hrs.1, gradient_ok hrs.2, dirs, List.map_cons, List.map_nil,
          List.sum_cons, List.sum_nil, add_zero, over_rate]
        rw [along_map _ _ _ _ _ a2]
        by_cases hm : b.mmax = 0
        · simp [hm]
        · cases disk with
          | true =>
            simp only [hm, if_false, if_true]
            rw [along_map _ _ _ _ _ a1]
          | false =>
            simp only [hm, if_false, Bool.false_eq_true]
            rw [along_map _ _ _ _ _ a2]
      | sphere b =>
        simp only [frequencyOne, s2Spacing, gradient_ok (show 3 ≤ b.Nphi from hrs), dirs, List.map_cons, List.map_nil,
          List.sum_cons, List.sum_nil, add_zero, over_rate]
        by_cases hL : b.Lmax = 0
        · simp [hL]
        · simp only [hL, if_false]
          rw [along_map _ _ _ _ _ has]
      | spherical ball b =>
        obtain ⟨a1, a2⟩ := has
        simp only [frequencyOne, sphericalSpacing, gradientOrInf_ok hrs.1, gradientOrInf_ok hrs.2, dirs, List.map_cons,
          List.map_nil, List.sum_cons, List.sum_nil, add_zero, over_rate, a2]
        have e2 : ((if b.Nr = 1 then none else some (difference b.Nr b.rgrid (g (b.axis + 2)))) : Option ℝ).map
            (fun d => d * b.dealiasR)
            = if b.Nr = 1 then none else some (b.dealiasR * difference b.Nr b.rgrid (g (b.axis + 2))) := by
          by_cases hN : b.Nr = 1
          · simp [hN]
          · simp [hN, mul_comm]
        rw [e2]
        by_cases hL : b.Lmax = 0
        · cases ball <;> simp [hL]
        · cases ball with
          | true =>
            simp only [hL, if_false, if_true]
            rw [along_map _ _ _ _ _ a1]
          | false =>
            simp only [hL, if_false, Bool.false_eq_true]
            rw [along_map _ _ _ _ _ a1, along_map _ _ _ _ _ a2]
            simp only
            rw [one_div_mul_eq_div]
    simp only [frequency, h1, h2, allDirs, List.map_append, List.sum_append]

/-! ### Spacings are positive -/

/-- A Jacobi-type grid: increasing points, and the first and last gaps not too small against their neighbours. -/
structure GoodGrid (n : ℕ) (x : ℕ → ℝ) : Prop where
  inc : ∀ k, k + 1 < n → x k < x (k + 1)
  first : x 2 - x 1 < 3 * (x 1 - x 0)
  last : x (n - 2) - x (n - 3) < 3 * (x (n - 1) - x (n - 2))

theorem difference_pos {n : ℕ} (h3 : 3 ≤ n) {x : ℕ → ℝ} (h : GoodGrid n x) (k : ℕ) (hk : k < n) :
    0 < difference n x k := by
  unfold difference
  split_ifs with h0 h1
  · have := h.first; linarith
  · have := h.last; linarith
  · have a := h.inc k (by omega)
    have b := h.inc (k - 1) (by omega)
    rw [Nat.sub_add_cancel (by omega)] at b
    linarith

/-- An interval basis with its bounds in order and, unless its spacing is known in closed form, a good grid. -/
structure IBasis.Good (b : IBasis) : Prop where
  bounds : b.left < b.right
  dealias : 0 < b.dealias
  nodes : b.kind = .jacobi → GoodGrid b.N (b.nodes b.N)

theorem intervalSpacing_pos (b : IBasis) (hN : 3 ≤ b.N) (h : b.Good) (k : ℕ) (hk : k < b.N) :
    0 < intervalSpacing b k := by
  have hN0 : (0 : ℝ) < b.N := by
    have : 0 < b.N := by omega
    exact_mod_cast this
  have hlr : 0 < b.right - b.left := sub_pos.2 h.bounds
  have hd := h.dealias
  unfold intervalSpacing
  cases hkd : b.kind with
  | fourier => simp only; positivity
  | chebyshevT =>
    simp only
    have hsin : 0 < Real.sin (Real.pi * (2 * k + 1) / (2 * b.N)) := by
      apply Real.sin_pos_of_pos_of_lt_pi
      · have := Real.pi_pos; positivity
      · have hk' : (2 * (k : ℝ) + 1) < 2 * b.N := by
          have : 2 * k + 1 < 2 * b.N := by omega
          exact_mod_cast this
        rw [div_lt_iff₀ (by positivity)]
        exact mul_lt_mul_of_pos_left hk' Real.pi_pos
    have := Real.pi_pos
    positivity
  | jacobi =>
    simp only
    have hg := h.nodes hkd
    apply mul_pos hd
    apply difference_pos hN _ k hk
    have e : ∀ i, b.grid i = b.left + (b.nodes b.N i + 1) / 2 * (b.right - b.left) := by
      intro i; simp [IBasis.grid, hkd]
    refine ⟨fun i hi => ?_, ?_, ?_⟩
    · rw [e, e]
      have := hg.inc i hi
      nlinarith
    · rw [e, e, e]
      have := hg.first
      nlinarith
    · rw [e, e, e]
      have := hg.last
      nlinarith

/-- A coordinate system whose grids are in order. -/
def Space.Good : Space → Prop
  | .cart bs => ∀ b, some b ∈ bs → b.Good
  | .polar _ b => 0 < b.radius ∧ 0 < b.dealiasR ∧ GoodGrid b.Nr b.rgrid ∧ 0 < b.rgrid 0
  | .sphere b => 0 < b.radius
  | .spherical _ b => 0 < b.radius ∧ 0 < b.dealiasR ∧ (b.Nr ≠ 1 → GoodGrid b.Nr b.rgrid) ∧ 0 < b.rgrid 0

/-- The index `g` is in the grid. -/
def Inside (g : ℕ → ℕ) : Space → Prop
  | .cart bs => ∀ b, some b ∈ bs → g b.axis < b.N
  | .polar _ b => g (b.axis + 1) < b.Nr
  | .sphere _ => True
  | .spherical _ b => g (b.axis + 2) < b.Nr

theorem rgrid_pos {n : ℕ} {x : ℕ → ℝ} (h : ∀ k, k + 1 < n → x k < x (k + 1)) (h0 : 0 < x 0) (k : ℕ) (hk : k < n) :
    0 < x k := by
  induction k with
  | zero => exact h0
  | succ k ih => exact (ih (by omega)).trans (h k hk)

theorem cartDirs_mem {g : ℕ → ℕ} {bs : List (Option IBasis)} : ∀ {u : ℕ → ℝ} {d : Dir}, d ∈ cartDirs g u bs →
    0 ≤ d.speed ∧ ∀ h, d.spacing = some h → ∃ b, some b ∈ bs ∧ h = intervalSpacing b (g b.axis) := by
  induction bs with
  | nil => intro u d hd; simp [cartDirs] at hd
  | cons b bs ih =>
    intro u d hd
    simp only [cartDirs, List.mem_cons] at hd
    rcases hd with rfl | hd
    · refine ⟨abs_nonneg _, fun h hh => ?_⟩
      cases b with
      | none => simp at hh
      | some b => exact ⟨b, by simp, by simpa using hh.symm⟩
    · obtain ⟨h1, h2⟩ := ih hd
      exact ⟨h1, fun h hh => by
        obtain ⟨b', hb', e⟩ := h2 h hh
        exact ⟨b', by simp [hb'], e⟩⟩

theorem cartResolved_N {bs : List (Option IBasis)} : ∀ {i : ℕ}, cartResolved i bs → ∀ b, some b ∈ bs → 3 ≤ b.N := by
  induction bs with
  | nil => intro i _ b hb; simp at hb
  | cons b bs ih =>
    intro i h b' hb'
    cases b with
    | none =>
      rcases List.mem_cons.1 hb' with h' | h'
      · cases h'
      · exact ih h b' h'
    | some b =>
      obtain ⟨h1, -, h3⟩ := h
      rcases List.mem_cons.1 hb' with h' | h'
      · cases h'; exact h1
      · exact ih h3 b' h'

/-- **C83.** On a grid with its bounds in order, all spacings are positive and all speeds are not negative. -/
theorem spacings_positive (g : ℕ → ℕ) (ss : List Space) (u : ℕ → ℝ) (hr : ∀ s ∈ ss, s.Resolved)
    (hg : ∀ s ∈ ss, s.Good) (hi : ∀ s ∈ ss, Inside g s) :
    ∀ d ∈ allDirs g u ss, 0 ≤ d.speed ∧ ∀ h, d.spacing = some h → 0 < h := by
  induction ss generalizing u with
  | nil => intro d hd; simp [allDirs] at hd
  | cons s ss ih =>
    intro d hd
    simp only [allDirs, List.mem_append] at hd
    rcases hd with hd | hd
    swap
    · exact ih _ (fun t ht => hr t (by simp [ht])) (fun t ht => hg t (by simp [ht])) (fun t ht => hi t (by simp [ht])) d hd
    have hrs := hr s (by simp)
    have hgs := hg s (by simp)
    have his := hi s (by simp)
    cases s with
    | cart bs =>
      obtain ⟨h1, h2⟩ := cartDirs_mem hd
      refine ⟨h1, fun h hh => ?_⟩
      obtain ⟨b, hb, rfl⟩ := h2 h hh
      exact intervalSpacing_pos b (cartResolved_N hrs b hb) (hgs b hb) _ (his b hb)
    | polar disk b =>
      obtain ⟨hR, hD, hG, h0⟩ := hgs
      have hrk := rgrid_pos hG.inc h0 _ his
      simp only [dirs, List.mem_cons, List.not_mem_nil, or_false] at hd
      rcases hd with rfl | rfl
      · refine ⟨abs_nonneg _, fun h hh => ?_⟩
        by_cases hm : b.mmax = 0
        · simp [hm] at hh
        · simp only [hm, if_false, Option.some.injEq] at hh
          have hm' : (0 : ℝ) < b.mmax := by exact_mod_cast Nat.pos_of_ne_zero hm
          rw [← hh]
          cases disk
          · simp only [Bool.false_eq_true, if_false]; exact div_pos hrk hm'
          · simp only [if_true]; exact div_pos hR hm'
      · refine ⟨abs_nonneg _, fun h hh => ?_⟩
        simp only [Option.some.injEq] at hh
        rw [← hh]
        exact mul_pos hD (difference_pos hrs.2 hG _ his)
    | sphere b =>
      simp only [dirs, List.mem_cons, List.not_mem_nil, or_false] at hd
      subst hd
      refine ⟨Real.sqrt_nonneg _, fun h hh => ?_⟩
      by_cases hL : b.Lmax = 0
      · simp [hL] at hh
      · simp only [hL, if_false, Option.some.injEq] at hh
        have hL' : (0 : ℝ) < b.Lmax := by exact_mod_cast Nat.pos_of_ne_zero hL
        rw [← hh]
        exact div_pos hgs (Real.sqrt_pos.2 (by positivity))
    | spherical ball b =>
      obtain ⟨hR, hD, hG, h0⟩ := hgs
      have hrk : 0 < b.rgrid (g (b.axis + 2)) := by
        by_cases hN : b.Nr = 1
        · have : g (b.axis + 2) = 0 := by
            have : g (b.axis + 2) < b.Nr := his
            omega
          rw [this]; exact h0
        · exact rgrid_pos (hG hN).inc h0 _ his
      simp only [dirs, List.mem_cons, List.not_mem_nil, or_false] at hd
      rcases hd with rfl | rfl
      · refine ⟨Real.sqrt_nonneg _, fun h hh => ?_⟩
        by_cases hL : b.Lmax = 0
        · simp [hL] at hh
        · simp only [hL, if_false, Option.some.injEq] at hh
          have hL' : (0 : ℝ) < b.Lmax := by exact_mod_cast Nat.pos_of_ne_zero hL
          have hsq : 0 < Real.sqrt (b.Lmax * (b.Lmax + 1)) := Real.sqrt_pos.2 (by positivity)
          rw [← hh]
          cases ball
          · simp only [Bool.false_eq_true, if_false]; exact div_pos hrk hsq
          · simp only [if_true]; exact div_pos hR hsq
      · refine ⟨abs_nonneg _, fun h hh => ?_⟩
        by_cases hN : b.Nr = 1
        · simp [hN] at hh
        · simp only [hN, if_false, Option.some.injEq] at hh
          rw [← hh]
          rcases hrs.2 with h1 | h3
          · exact absurd h1 hN
          · exact mul_pos hD (difference_pos h3 (hG hN) _ his)

/-- **C83.** The closed forms are what they stand for. The Fourier spacing is the dealias factor times the distance of
neighbouring grid points. The Chebyshev spacing is the dealias factor times the derivative, with respect to the index,
of the map that takes an index to its grid point `-cos(π (k + 1/2) / N)` in problem coordinates. -/
theorem spacing_meaning (b : IBasis) (hN : 0 < b.N) (k : ℕ) :
    (b.kind = .fourier → intervalSpacing b k = b.dealias * (b.grid (k + 1) - b.grid k)) ∧
    (b.kind = .chebyshevT → ∃ d, intervalSpacing b k = b.dealias * d ∧
      HasDerivAt (fun s : ℝ => b.left + (-Real.cos (Real.pi * (s + 1 / 2) / b.N) + 1) / 2 * (b.right - b.left)) d k) := by
  have hN0 : (b.N : ℝ) ≠ 0 := by
    have : b.N ≠ 0 := by omega
    exact_mod_cast this
  constructor
  · intro hk
    have := Real.pi_ne_zero
    simp only [intervalSpacing, IBasis.grid, hk]
    push_cast
    field_simp
    ring
  · intro hk
    refine ⟨(b.right - b.left) / 2 * (Real.sin (Real.pi * (2 * k + 1) / (2 * b.N)) * (Real.pi / b.N)), ?_, ?_⟩
    · simp only [intervalSpacing, hk]
    · have h1 : HasDerivAt (fun s : ℝ => Real.pi * (s + 1 / 2) / b.N) (Real.pi * 1 / b.N) k :=
        (((hasDerivAt_id (k : ℝ)).add_const (1 / 2 : ℝ)).const_mul Real.pi).div_const _
      have h2 := (((h1.cos.neg.add_const 1).div_const 2).mul_const (b.right - b.left)).const_add b.left
      refine HasDerivAt.congr_deriv h2 ?_
      have : Real.pi * ((k : ℝ) + 1 / 2) / b.N = Real.pi * (2 * (k : ℝ) + 1) / (2 * b.N) := by
        field_simp
      rw [this]
      ring

/-! ### The timestep -/

theorem le_sum_of_mem {l : List ℝ} (h : ∀ x ∈ l, 0 ≤ x) {a : ℝ} (ha : a ∈ l) : a ≤ l.sum := by
  induction l with
  | nil => simp at ha
  | cons b t ih =>
    have ht : 0 ≤ t.sum := List.sum_nonneg fun x hx => h x (by simp [hx])
    have hb := h b (by simp)
    rcases List.mem_cons.1 ha with rfl | ha
    · simp only [List.sum_cons]; linarith
    · have := ih (fun x hx => h x (by simp [hx])) ha
      simp only [List.sum_cons]; linarith

/-- **C83.** A step `dt` for which `dt` times the largest frequency is at most the safety factor moves the flow, at
every grid point and in every direction, by at most the safety factor times the spacing; the sum over all directions
of the fractions of a spacing crossed is bounded by the safety factor too. -/
theorem courant (loc : ℕ → ℕ → List ℕ) (p g : ℕ → ℕ) (ss : List Space) (u : ℕ → ℝ) (hr : ∀ s ∈ ss, s.Resolved)
    (hat : ∀ s ∈ ss, At loc p g s) (hg : ∀ s ∈ ss, s.Good) (hi : ∀ s ∈ ss, Inside g s) (dt safety : ℝ) (hdt : 0 ≤ dt)
    (f w : ℝ) (hf : frequency loc p u ss = .ok f) (hw : |f| ≤ w) (hsafe : dt * w ≤ safety) :
    0 ≤ f ∧ ∀ d ∈ allDirs g u ss, ∀ h, d.spacing = some h → dt * d.speed ≤ safety * h := by
  have hpos := spacings_positive g ss u hr hg hi
  have hnn : ∀ x ∈ (allDirs g u ss).map Dir.rate, 0 ≤ x := by
    intro x hx
    obtain ⟨d, hd, rfl⟩ := List.mem_map.1 hx
    obtain ⟨h1, h2⟩ := hpos d hd
    unfold Dir.rate
    cases hs : d.spacing with
    | none => exact le_refl _
    | some h => exact div_nonneg h1 (h2 h hs).le
  rw [frequency_exact loc p g ss u hr hat] at hf
  have hf' : ((allDirs g u ss).map Dir.rate).sum = f := Except.ok.inj hf
  refine ⟨hf' ▸ List.sum_nonneg hnn, fun d hd h hs => ?_⟩
  have hh := (hpos d hd).2 h hs
  have h1 : d.speed / h ≤ f := by
    rw [← hf']
    apply le_sum_of_mem hnn
    refine List.mem_map.2 ⟨d, hd, ?_⟩
    simp [Dir.rate, hs]
  have h2 : dt * (d.speed / h) ≤ safety :=
    (mul_le_mul_of_nonneg_left (h1.trans ((le_abs_self f).trans hw)) hdt).trans hsafe
  calc dt * d.speed = dt * (d.speed / h) * h := by field_simp
    _ ≤ safety * h := mul_le_mul_of_nonneg_right h2 hh.le

/-- **C83.** Together with C27: at an update of the adaptive timestep, with zero threshold, unless a lower bound on
the timestep applies, the new step respects the Courant limit at every grid point whose frequency was counted. -/
theorem timestep_courant (c : Flow.Cfl ℝ) {sf M m mc d : ℝ} {C : Flow.Ext ℝ} (hc : Flow.Settings c sf M m C mc 0)
    (hd : c.storedDt = .fin d) (d0 : 0 < d) (hdm : m ≤ d) (hdM : d ≤ M) (it : ℕ) (w : ℝ) (hw : 0 ≤ w)
    (hup : Flow.Updates c it) :
    ∃ v, (Flow.computeTimestep c it (.fin w)).storedDt = .fin v ∧ (v = m ∨ v = mc * d ∨
      ∀ (loc : ℕ → ℕ → List ℕ) (p g : ℕ → ℕ) (ss : List Space) (u : ℕ → ℝ) (f : ℝ), (∀ s ∈ ss, s.Resolved) →
        (∀ s ∈ ss, At loc p g s) → (∀ s ∈ ss, s.Good) → (∀ s ∈ ss, Inside g s) →
        frequency loc p u ss = .ok f → |f| ≤ w →
        ∀ e ∈ allDirs g u ss, ∀ h, e.spacing = some h → v * e.speed ≤ sf * h) := by
  obtain ⟨v, h1, h2, -, -, -, -, h7, -⟩ := Flow.cfl_update c hc hd d0 hdm hdM it w hw hup
  refine ⟨v, h1, ?_⟩
  rcases h7 rfl with h | h | h
  · right; right
    intro loc p g ss u f hr hat hg hi hf hfw
    exact (courant loc p g ss u hr hat hg hi v sf (hc.m0.trans h2) f w hf hfw h).2
  · left; exact h
  · right; left; exact h

/-! ### What goes wrong -/

/-- A Chebyshev basis with four points along axis 1. -/
noncomputable def chebAxis1 : IBasis := ⟨.chebyshevT, 4, 1, -1, 1, fun _ _ => 0, 1⟩

theorem chebAxis1_N : chebAxis1.N = 4 := by
  simp only [IBasis.N, gridSize, chebAxis1]
  norm_num

/-- **C83**, refuted: in a direct product whose second factor is a Chebyshev coordinate (a cylinder, say), no process
holding all four points can compute the frequency, for any velocity. -/
theorem product_chebyshev_refuted (s : Space) (u : ℕ → ℝ) (p : ℕ → ℕ) :
    ∃ e, frequency (fun _ n => List.range n) p u [s, .cart [some chebAxis1]] = .error e := by
  have h : frequencyOne (fun _ n => List.range n) p (fun i => u (i + s.dim)) (.cart [some chebAxis1]) = .error .valueError := by
    have : chebAxis1.spacing (fun _ n => List.range n) 0 = .error .valueError := by
      unfold IBasis.spacing
      rw [gradient_ok (by rw [chebAxis1_N]; omega)]
      simp only [chebAxis1_N]
      rfl
    simp only [frequencyOne, cartSpacing, this]
  unfold frequency
  cases h1 : frequencyOne (fun _ n => List.range n) p u s with
  | error e => exact ⟨e, rfl⟩
  | ok f => exact ⟨.valueError, by simp only [frequency, h]⟩

/-- **C83**, refuted: on an axisymmetric disk, annulus or sphere (one azimuthal mode) the frequency cannot be computed,
although the code foresees an infinite azimuthal spacing for it. -/
theorem axisymmetric_refuted (loc : ℕ → ℕ → List ℕ) (p : ℕ → ℕ) (u : ℕ → ℝ) (disk : Bool) (b : CBasis)
    (h1 : b.nphi = 1) : b.mmax = 0 ∧ frequency loc p u [.polar disk b] = .error .valueError ∧
      frequency loc p u [.sphere b] = .error .valueError := by
  have hN : b.Nphi = 1 := by simp [CBasis.Nphi, gridSize, h1]
  have hgrad : gradient b.Nphi b.phi = .error .valueError := by simp [gradient, hN]
  refine ⟨by simp [CBasis.mmax, h1], ?_, ?_⟩
  · simp only [frequency, frequencyOne, polarSpacing, hgrad]
  · simp only [frequency, frequencyOne, s2Spacing, hgrad]

/-- **C83**, what happens outside `Resolved`: a grid of one or two points along the first coordinate raises; no spacing is made
up from points outside the grid. -/
theorem coarse_grid_raises (loc : ℕ → ℕ → List ℕ) (p : ℕ → ℕ) (u : ℕ → ℝ) (b : IBasis) (bs : List (Option IBasis))
    (h : b.N < 3) : frequency loc p u [.cart (some b :: bs)] = .error .valueError := by
  have hg : gradient b.N b.grid = .error .valueError := by simp [gradient, h]
  simp only [frequency, frequencyOne, cartSpacing, IBasis.spacing, hg]

example : (IBasis.mk .fourier 2 1 0 1 (fun _ _ => 0) 0).N < 3 := by
  simp only [IBasis.N, gridSize]; norm_num

/-- Two periodic directions, the second with its bounds in reverse order. -/
noncomputable def forward : IBasis := ⟨.fourier, 4, 1, 0, 1, fun _ _ => 0, 0⟩
/-- See `forward`. -/
noncomputable def backward : IBasis := ⟨.fourier, 4, 1, 1, 0, fun _ _ => 0, 1⟩

/-- **C83**, refuted without the order of the bounds: nothing rejects reversed bounds, the spacing is negative, and the
contributions of two directions cancel. A uniform diagonal flow has frequency zero everywhere, so it does not limit
the timestep. -/
theorem reversed_bounds_refuted :
    frequency (fun _ n => List.range n) (fun _ => 0) (fun _ => 1) [.cart [some forward, some backward]] = .ok 0 := by
  have hN1 : forward.N = 4 := by simp only [IBasis.N, gridSize, forward]; norm_num
  have hN2 : backward.N = 4 := by simp only [IBasis.N, gridSize, backward]; norm_num
  have hr : ∀ s ∈ [Space.cart [some forward, some backward]], s.Resolved := by
    intro s hs
    rw [List.mem_singleton.1 hs]
    exact ⟨by rw [hN1]; omega, by simp [forward], by rw [hN2]; omega, by simp [backward], trivial⟩
  have hat : ∀ s ∈ [Space.cart [some forward, some backward]], At (fun _ n => List.range n) (fun _ => 0) (fun _ => 0) s := by
    intro s hs
    rw [List.mem_singleton.1 hs]
    intro b hb
    simp only [List.mem_cons, Option.some.injEq, List.not_mem_nil, or_false] at hb
    rcases hb with rfl | rfl
    · rw [hN1]; rfl
    · rw [hN2]; rfl
  rw [frequency_exact _ _ _ _ _ hr hat]
  simp only [allDirs, dirs, cartDirs, Option.map_some, intervalSpacing, hN1, hN2]
  simp only [Dir.rate, forward, backward, List.map_cons, List.map_nil, List.append_nil, List.sum_cons, List.sum_nil]
  norm_num

/-- **C83**, refuted: adding a velocity on a disk to the timestep calculation changes what
`basis.local_grid_spacing` returns afterwards, from the azimuthal grid spacing to the limit used by the frequency. -/
theorem grid_spacing_overwritten_refuted (fresh : List ℝ) (v : ℝ) (c : SpacingCache) (h : c.arr = none) :
    (c.read fresh).1 = fresh ∧ ((c.diskCfl fresh v).read fresh).1 = fresh.map fun _ => v := by
  simp [SpacingCache.read, SpacingCache.diskCfl, h]

/-! ### A case that meets all hypotheses -/

/-- A periodic direction and a Chebyshev direction, as in a plane layer. -/
noncomputable def layer : List Space :=
  [.cart [some ⟨.fourier, 8, 3 / 2, 0, 4, fun _ _ => 0, 0⟩, some ⟨.chebyshevT, 6, 3 / 2, 0, 1, fun _ _ => 0, 1⟩]]

example : (∀ s ∈ layer, s.Resolved) ∧ (∀ s ∈ layer, s.Good) ∧
    (∀ s ∈ layer, Inside (fun _ => 5) s) ∧ (∀ s ∈ layer, At (fun _ n => List.range n) (fun _ => 5) (fun _ => 5) s) := by
  have h1 : (⟨.fourier, 8, 3 / 2, 0, 4, fun _ _ => 0, 0⟩ : IBasis).N = 12 := by
    simp only [IBasis.N, gridSize]; norm_num
  have h2 : (⟨.chebyshevT, 6, 3 / 2, 0, 1, fun _ _ => 0, 1⟩ : IBasis).N = 9 := by
    simp only [IBasis.N, gridSize]; norm_num
  refine ⟨?_, ?_, ?_, ?_⟩ <;> intro s hs <;> simp only [layer, List.mem_singleton] at hs <;> subst hs
  · exact ⟨by rw [h1]; omega, by simp, by rw [h2]; omega, by simp, trivial⟩
  · intro b hb
    simp only [List.mem_cons, Option.some.injEq, List.not_mem_nil, or_false] at hb
    rcases hb with rfl | rfl
    · exact ⟨by norm_num, by norm_num, by simp⟩
    · exact ⟨by norm_num, by norm_num, by simp⟩
  · intro b hb
    simp only [List.mem_cons, Option.some.injEq, List.not_mem_nil, or_false] at hb
    rcases hb with rfl | rfl
    · rw [h1]; norm_num
    · rw [h2]; norm_num
  · intro b hb
    simp only [List.mem_cons, Option.some.injEq, List.not_mem_nil, or_false] at hb
    rcases hb with rfl | rfl
    · rw [h1]; rfl
    · rw [h2]; rfl

end Dedalus.Cfl
