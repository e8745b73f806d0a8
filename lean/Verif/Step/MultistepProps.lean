import Verif.Step.MultistepLemmas

/-!
# C11, C12, C47 (multistep part): stepping uses the true history and matching factorisations
-/

namespace Dedalus.Step

variable {F ι X V : Type} [Field F] [AddCommGroup V] [Module F V] [DecidableEq F] [Fintype ι]

/-- Specification: `w 0, w 1, ...` are the solver states of a run started with a fresh timestepper
(whose history buffers hold arbitrary memory) and taking the timesteps `d 0, d 1, ...`; `lg n` is what
step `n` reports. -/
structure MRun (P : Sys F ι X V) (s : Scheme) (d : Nat → F) (w : Nat → World F ι X V)
    (lg : Nat → StepLog F ι) : Prop where
  start : ∃ junk, (w 0).ms = initMS s junk
  step : ∀ n, mstep P s (w n) (d n) = some (w (n + 1), lg n)

theorem MRun.inv {P : Sys F ι X V} {s : Scheme} {d : Nat → F} {w : Nat → World F ι X V}
    {lg : Nat → StepLog F ι} (h : MRun P s d w lg) (n : Nat) : Inv P s d w n := by
  induction n with
  | zero => obtain ⟨j, hj⟩ := h.start; exact inv_init P s d w j hj
  | succ n ih => exact inv_step P s d w n ih _ (h.step n)

/-- C47 (multistep). Time advances by exactly the timesteps taken. -/
theorem multistep_clock {P : Sys F ι X V} {s : Scheme} {d : Nat → F} {w : Nat → World F ι X V}
    {lg : Nat → StepLog F ι} (h : MRun P s d w lg) (n : Nat) :
    (w n).time = (w 0).time + ∑ k ∈ Finset.range n, d k := by
  induction n with
  | zero => simp
  | succ n ih =>
    obtain ⟨_, _, _, _, _, _, _, _, _, _, _, _, _, h7, _⟩ := mstep_some P s _ _ _ _ (h.step n)
    rw [h7, ih, Finset.sum_range_succ, add_assoc]

/-- C12 (multistep). Every solve uses the factorisation of `a0*M + b0*L` for the coefficients of
that very step, whatever the history of timesteps, and factorisations are made anew only when the
coefficients differ from those of the step before. -/
theorem multistep_factorisation_current {P : Sys F ι X V} {s : Scheme} {d : Nat → F}
    {w : Nat → World F ι X V} {lg : Nat → StepLog F ι} (h : MRun P s d w lg) (n : Nat) :
    (∀ i, (lg n).co.a[0]? = some ((lg n).used i).1 ∧ (lg n).co.b[0]? = some ((lg n).used i).2) ∧
    (∀ m, m + 1 = n → ((lg n).refactored = true ↔
      ((lg n).co.a[0]?, (lg n).co.b[0]?) ≠ ((lg m).co.a[0]?, (lg m).co.b[0]?))) ∧
    (n = 0 → (lg n).refactored = true) := by
  obtain ⟨a0, b0, rhs, hco, ha, hb, hr, h1, h2, h3, h4, h5, h6, h7, h8, h9, h10, h11⟩ :=
    mstep_some P s _ _ _ _ (h.step n)
  have hc := (h.inv (n + 1)).cache
  refine ⟨?_, ?_, ?_⟩
  · intro i
    have := hc i
    rw [h10 i, h6] at this
    injection this with this
    rw [this]; exact ⟨ha, hb⟩
  · rintro m rfl
    obtain ⟨a0', b0', rhs', hco', ha', hb', hr', h1', h2', h3', h4', h5', h6', h7', h8', h9', h10', h11'⟩ :=
      mstep_some P s _ _ _ _ (h.step m)
    rw [h8, h6', ha, hb, ha', hb']
    simp [imp_iff_not_or]
  · rintro rfl
    obtain ⟨j, hj⟩ := h.start
    rw [h8, hj]
    simp [initMS]

/-- C11. At step `n` the stepper computes the coefficients from exactly the timesteps taken so far
(newest first), and the new state is the solution returned for the right-hand side built from the
states `n, n-1, ...`: no entry of the initial, arbitrary history memory is used. If the linear solver
solves (`hsolve`), the documented discrete equation
`Σ_j a_j M.X(n+1-j) + Σ_j b_j L.X(n+1-j) = Σ_{j≥1} c_j F(n+1-j)` holds for every subproblem; all
indices `n+1-j` that occur are at least 0. -/
theorem multistep_equation {P : Sys F ι X V} {s : Scheme} {d : Nat → F} {w : Nat → World F ι X V}
    {lg : Nat → StepLog F ι} [LinearOrder F] [IsStrictOrderedRing F]
    (h : MRun P s d w lg) (hd : ∀ k, 0 < d k) (n : Nat)
    (hsolve : ∀ i r a b, (lg n).co.a[0]? = some a → (lg n).co.b[0]? = some b →
      a • P.M i (P.solve a b i r) + b • P.L i (P.solve a b i r) = r) :
    let co := (lg n).co
    s.coeffs ((List.range s.steps).map fun j => if j ≤ n then d (n - j) else 0) n = some co ∧
    co.a.length = min (n + 1) s.steps + 1 ∧ co.b.length = co.a.length ∧ co.c.length = co.a.length ∧
    (∀ i, ∑ j ∈ Finset.range co.a.length, (co.a[j]?.getD 0) • P.M i ((w (n + 1 - j)).x i) +
        ∑ j ∈ Finset.range co.b.length, (co.b[j]?.getD 0) • P.L i ((w (n + 1 - j)).x i) =
        ∑ j ∈ Finset.range co.c.length, (co.c[j]?.getD 0) • P.force (w (n + 1 - j)).time (w (n + 1 - j)).x i) := by
  intro co
  obtain ⟨a0, b0, rhs, hco, ha, hb, hr, h1, h2, h3, h4, h5, h6, h7, h8, h9, h10, h11⟩ :=
    mstep_some P s _ _ _ _ (h.step n)
  have hinv := h.inv n
  have hinv' := h.inv (n + 1)
  have hst := steps_pos s
  rw [hinv.dt, recent_push _ hst, hinv.it] at hco
  have hco0 := hco
  have hrec : recent s.steps d (n + 1) = (List.range s.steps).map fun j => if j ≤ n then d (n - j) else 0 := by
    unfold recent
    apply List.map_congr_left
    intro j _
    simp only [Nat.add_sub_cancel, Nat.lt_succ_iff]
  obtain ⟨co', e1, e2, e3⟩ := multistep_order s (recent s.steps d (n + 1)) n 0 (by simp [recent]) (by
    rw [take_recent]
    intro k hk
    simp at hk
    obtain ⟨j, _, rfl⟩ := hk
    exact hd _)
  have : co' = (lg n).co := by rw [hco] at e1; injection e1 with e1; exact e1.symm
  subst this
  obtain ⟨l1, l2, l3⟩ := coeffs_first s _ _ _ hco
  refine ⟨by rw [← hrec]; exact hco, e3, l1.symm, l2.symm, ?_⟩
  have hm := buildRHS_eq (lg n).co (w (n + 1)).ms.MX (w (n + 1)).ms.LX (w (n + 1)).ms.FX
    (fun j i => P.M i ((w (n - j)).x i)) (fun j i => P.L i ((w (n - j)).x i))
    (fun j => P.force (w (n - j)).time (w (n - j)).x) ⟨l1, l2, l3⟩
    (fun j hj => by have := hinv'.MX.2 j (by omega) (by omega); simpa using this)
    (fun j hj => by have := hinv'.LX.2 j (by omega) (by omega); simpa using this)
    (fun j hj => by have := hinv'.FX.2 j (by omega) (by omega); simpa using this)
  rw [hr] at hm
  injection hm with hm
  intro i
  have hu : lg n = lg n := rfl
  obtain ⟨hu, _⟩ := multistep_factorisation_current h n
  have hu1 : ((lg n).used i).1 = a0 := by have := (hu i).1; rw [ha] at this; injection this with this; exact this.symm
  have hu2 : ((lg n).used i).2 = b0 := by have := (hu i).2; rw [hb] at this; injection this with this; exact this.symm
  have hx := h11 i
  rw [hu1, hu2] at hx
  have hsol := hsolve i (rhs i) a0 b0 ha hb
  rw [← hx] at hsol
  have hri := congrFun hm i
  simp only [Pi.sub_apply, Finset.sum_apply, Pi.smul_apply] at hri
  rw [sum_tail (lg n).co.a (by omega), sum_tail (lg n).co.b (by omega), sum_tail (lg n).co.c (by omega)]
  have c0 : (lg n).co.c[0]?.getD 0 = 0 := by
    have := e2.forward
    rw [List.head?_eq_getElem?] at this
    rw [this]; rfl
  simp only [ha, hb, c0, Option.getD_some, Nat.sub_zero, Nat.add_sub_add_right, zero_smul, zero_add]
  rw [hri] at hsol
  have : ∀ A B C D E : V, A + B = C - D - E → A + D + (B + E) = C := by
    intro A B C D E h
    rw [show A + D + (B + E) = (A + B) + D + E by abel, h]; abel
  exact this _ _ _ _ _ hsol

/-- C10 for runs: the formula used at step `n` has order `min (n+1) steps` at the actual times of
the states it combines. -/
theorem multistep_run_order {P : Sys F ι X V} {s : Scheme} {d : Nat → F} {w : Nat → World F ι X V}
    {lg : Nat → StepLog F ι} [LinearOrder F] [IsStrictOrderedRing F]
    (h : MRun P s d w lg) (hd : ∀ k, 0 < d k) (n : Nat) :
    HasOrder (min (n + 1) s.steps) (lg n).co
      ((List.range (min (n + 1) s.steps + 1)).map fun j => (w (n + 1 - j)).time) := by
  obtain ⟨a0, b0, rhs, hco, -⟩ := mstep_some P s _ _ _ _ (h.step n)
  have hst := steps_pos s
  rw [(h.inv n).dt, recent_push _ hst, (h.inv n).it] at hco
  obtain ⟨co', e1, e2, e3⟩ := multistep_order s (recent s.steps d (n + 1)) n (w n).time (by simp [recent]) (by
    rw [take_recent]
    intro k hk
    simp at hk
    obtain ⟨j, _, rfl⟩ := hk
    exact hd _)
  have : co' = (lg n).co := by rw [hco] at e1; injection e1 with e1; exact e1.symm
  subst this
  rw [take_recent] at e2
  obtain ⟨p, hp⟩ : ∃ p, min (n + 1) s.steps = p + 1 := ⟨min (n + 1) s.steps - 1, by omega⟩
  have hT : ∀ k, (w (k + 1)).time = (w k).time + d k := by
    intro k
    obtain ⟨_, _, _, _, _, _, _, _, _, _, _, _, _, h7, _⟩ := mstep_some P s _ _ _ _ (h.step k)
    exact h7
  rw [hp, sampleTimes_eq (fun k => (w k).time) d hT n p (by omega)] at e2
  rw [hp]
  exact e2

/-- Steps never fail: for positive timesteps every initial state has a run. -/
theorem multistep_run_exists (P : Sys F ι X V) (s : Scheme) (d : Nat → F) [LinearOrder F]
    [IsStrictOrderedRing F] (hd : ∀ k, 0 < d k) (x0 : ι → X) (t0 : F) (junk : ι → V) :
    ∃ w lg, MRun P s d w lg ∧ (w 0).x = x0 ∧ (w 0).time = t0 := by
  -- one step from a state satisfying the invariant
  have hst := steps_pos s
  have key : ∀ n (w : World F ι X V), w.ms.dt = recent s.steps d n → w.ms.iteration = n →
      w.ms.MX.length = s.steps → w.ms.LX.length = s.steps → w.ms.FX.length = s.steps →
      (∀ i, w.ms.solvers i = w.ms.params) → ∃ r, mstep P s w (d n) = some r := by
    intro n w hdt hit hM hL hF hc
    obtain ⟨co, e1, e2, e3⟩ := multistep_order s (recent s.steps d (n + 1)) n 0 (by simp [recent]) (by
      rw [take_recent]
      intro k hk
      simp at hk
      obtain ⟨j, _, rfl⟩ := hk
      exact hd _)
    obtain ⟨l1, l2, l3⟩ := coeffs_first s _ _ _ e1
    obtain ⟨a0, ha⟩ : ∃ a0, co.a[0]? = some a0 := by
      rw [List.getElem?_eq_getElem (by omega)]; exact ⟨_, rfl⟩
    obtain ⟨b0, hb⟩ : ∃ b0, co.b[0]? = some b0 := by
      rw [List.getElem?_eq_getElem (by omega)]; exact ⟨_, rfl⟩
    have hg : ∀ (l : List (ι → V)) (v : ι → V), l.length = s.steps → ∀ j, j + 1 < co.a.length →
        ((rotate l).set 0 v)[j]? = some ((((rotate l).set 0 v)[j]?).getD v) := by
      intro l v hl j hj
      have : j < ((rotate l).set 0 v).length := by
        rw [rotate_set l (by intro h; rw [h] at hl; simp at hl; omega)]
        simp; omega
      rw [List.getElem?_eq_getElem this]; rfl
    have hm := buildRHS_eq co ((rotate w.ms.MX).set 0 (fun i => P.M i (w.x i)))
      ((rotate w.ms.LX).set 0 (fun i => P.L i (w.x i))) ((rotate w.ms.FX).set 0 (P.force w.time w.x))
      _ _ _ ⟨l1, l2, l3⟩ (hg _ _ hM) (hg _ _ hL) (hg _ _ hF)
    unfold mstep
    simp only [hdt, recent_push _ hst, hit, e1, Option.bind_eq_bind, Option.bind_some, ha, hb, hm]
    rw [dif_pos]
    · exact ⟨_, rfl⟩
    · intro i
      by_cases hu : some (a0, b0) = w.ms.params
      · rw [if_neg (by simp [hu]), if_neg (by simp [hu]), hc i, ← hu]; rfl
      · rw [if_pos (by simpa using hu)]; rfl
  let w0 : World F ι X V := ⟨x0, t0, initMS s junk⟩
  let wl : Nat → World F ι X V × Option (StepLog F ι) := fun n =>
    Nat.rec (w0, none) (fun n p => match mstep P s p.1 (d n) with
      | some (w', lg) => (w', some lg)
      | none => (p.1, none)) n
  have hwl : ∀ n, wl (n + 1) = match mstep P s (wl n).1 (d n) with
      | some (w', lg) => (w', some lg)
      | none => ((wl n).1, none) := fun n => rfl
  have hinv : ∀ n, Inv P s d (fun n => (wl n).1) n := by
    intro n
    induction n with
    | zero => exact inv_init P s d _ junk rfl
    | succ n ih =>
      obtain ⟨⟨w', lg⟩, hr⟩ := key n _ ih.dt ih.it ih.MX.1 ih.LX.1 ih.FX.1 ih.cache
      refine inv_step P s d _ n ih lg ?_
      simp only [hwl n, hr]
  have hstep : ∀ n, ∃ lg, mstep P s (wl n).1 (d n) = some ((wl (n + 1)).1, lg) := by
    intro n
    have ih := hinv n
    obtain ⟨⟨w', lg⟩, hr⟩ := key n _ ih.dt ih.it ih.MX.1 ih.LX.1 ih.FX.1 ih.cache
    refine ⟨lg, ?_⟩
    simp only [hwl n, hr]
  choose lg hlg using hstep
  exact ⟨fun n => (wl n).1, lg, ⟨⟨junk, rfl⟩, hlg⟩, rfl, rfl⟩

-- The hypotheses are met: two scalar subproblems x' + i x = t, solved exactly, varying timesteps.
example : ∃ w lg, MRun (F := ℚ) (ι := Fin 2) (X := ℚ) (V := ℚ)
      ⟨fun _ x => x, fun i x => i.val * x, fun t _ _ => t, fun a b i r => r / (a + b * i.val)⟩
      .SBDF3 (fun k => 1 / (k + 1)) w lg ∧ (w 0).x = (fun _ => 1) ∧ (w 0).time = 0 ∧ ∀ k : Nat, (0:ℚ) < 1 / (k + 1) := by
  have hp : ∀ k : Nat, (0:ℚ) < 1 / (k + 1) := fun k => by positivity
  obtain ⟨w, lg, h1, h2, h3⟩ := multistep_run_exists (F := ℚ) (ι := Fin 2) (X := ℚ) (V := ℚ)
    ⟨fun _ x => x, fun i x => i.val * x, fun t _ _ => t, fun a b i r => r / (a + b * i.val)⟩
    .SBDF3 (fun k => 1 / (k + 1)) hp (fun _ => 1) 0 0
  exact ⟨w, lg, h1, h2, h3, hp⟩

end Dedalus.Step
