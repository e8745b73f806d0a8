import Verif.Step.RKLemmas
import Verif.Step.TableauProps

/-!
# C13, C12 and C47 (Runge-Kutta part): steps follow the tableau
-/

namespace Dedalus.Step

variable {F ι X V : Type} [Field F] [AddCommGroup V] [Module F V] [Fintype ι] [DecidableEq F]

/-- Specification: states of a run of a Runge-Kutta scheme started with a fresh timestepper
(arbitrary memory), with timesteps `d 0, d 1, ...` and stage reports `lg`. -/
structure RKRun {s : Nat} (P : Sys F ι X V) (T : Tableau F s) (d : Nat → F)
    (w : Nat → RKWorld F ι X V s) (lg : Nat → List (StageLog F ι X)) : Prop where
  start : ∃ junk, (w 0).rk = initRK s junk
  step : ∀ n, rkStep P T (w n) (d n) = some (w (n + 1), lg n)

/-- One step from any state whose factorisations belong to the recorded timestep. -/
theorem rkStep_good {s : Nat} (P : Sys F ι X V) (T : Tableau F s) (w : RKWorld F ι X V s) (k : F)
    (hc : CacheOK T w.rk) :
    ∃ w' lgs Ys, rkStep P T w k = some (w', lgs) ∧ Ys 0 = w.x ∧
      Good P T k w.time (decide (some k ≠ w.rk.params)) w' Ys (Fin.last s) ∧ lgs.length = s ∧
      (∀ i : Fin s, ∀ p, Ys i.succ p = P.solve 1 (k * T.H i.succ i.succ) p (stageRHS P T k w.time Ys i.succ p)) ∧
      (∀ i : Fin s, ∃ lg, lgs[i.val]? = some lg ∧ lg.result = Ys i.succ ∧
        (∀ p, lg.used p = k * T.H i.succ i.succ) ∧ lg.forceState = Ys i.castSucc ∧
        lg.forceTime = if i.castSucc = 0 then w.time else w.time + k * T.c i.castSucc) ∧
      CacheOK T w'.rk := by
  have hg : Good P T k w.time (decide (some k ≠ w.rk.params))
      { w with rk := { params := some k, LX := Function.update w.rk.LX 0 (fun p => P.L p (w.x p)), FX := w.rk.FX,
                       solvers := if decide (some k ≠ w.rk.params) then fun _ _ => none else w.rk.solvers } }
      (fun _ => w.x) ⟨0, by omega⟩ := by
    refine ⟨rfl, rfl, ?_, ?_, rfl, ?_⟩
    · intro j hj
      have : j = 0 := by
        rcases hj with hj | hj
        · exact absurd hj (by simp [Fin.lt_def])
        · exact hj
      subst this; simp
    · intro j hj; exact absurd hj (by simp [Fin.lt_def])
    · intro p i hi
      rcases hi with hi | hi
      · simp only [hi]
        simp at hi
        exact hc k hi.symm p i
      · exact absurd hi (by simp [Fin.le_def])
  obtain ⟨w', lgs, Ys, h1, h2, h3, h4, h5, h6⟩ := loop_good P T k w.time _ s 0 (by omega) _ _ hg
  refine ⟨w', lgs, Ys, ?_, h2 0 (by simp), h3, h4, fun i p => h5 i (by omega) p, fun i => ?_, ?_⟩
  · rw [List.drop_zero] at h1; exact h1
  · simpa using h6 i (by omega)
  · intro k' hk' p i
    rw [h3.params] at hk'
    injection hk' with hk'
    subst hk'
    exact h3.cache p i (Or.inr (Fin.le_last _))

theorem RKRun.cache {s : Nat} {P : Sys F ι X V} {T : Tableau F s} {d : Nat → F}
    {w : Nat → RKWorld F ι X V s} {lg : Nat → List (StageLog F ι X)} (h : RKRun P T d w lg) (n : Nat) :
    CacheOK T (w n).rk := by
  induction n with
  | zero =>
    obtain ⟨j, hj⟩ := h.start
    rw [hj]
    intro k hk; simp [initRK] at hk
  | succ n ih =>
    obtain ⟨w', lgs, Ys, h1, _, _, _, _, _, hc⟩ := rkStep_good P T (w n) (d n) ih
    rw [h.step n] at h1
    simp only [Option.some.injEq, Prod.mk.injEq] at h1
    rw [h1.1]; exact hc

/-- C12 (Runge-Kutta). Every stage solve uses the factorisation of `M + k H_ii L` for the timestep
`k` of that very step and its own stage, for every history of timesteps. -/
theorem rk_factorisation_current {s : Nat} {P : Sys F ι X V} {T : Tableau F s} {d : Nat → F}
    {w : Nat → RKWorld F ι X V s} {lg : Nat → List (StageLog F ι X)} (h : RKRun P T d w lg) (n : Nat)
    (i : Fin s) : ∃ l, (lg n)[i.val]? = some l ∧ ∀ p, l.used p = d n * T.H i.succ i.succ := by
  obtain ⟨w', lgs, Ys, h1, _, _, _, _, h6, _⟩ := rkStep_good P T (w n) (d n) (h.cache n)
  rw [h.step n] at h1
  simp only [Option.some.injEq, Prod.mk.injEq] at h1
  obtain ⟨l, a, _, b, _⟩ := h6 i
  exact ⟨l, by rw [h1.2]; exact a, b⟩

/-- C13, C47 (Runge-Kutta). A step makes exactly `s` stages. Writing `Y 0` for the state before the
step and `Y i` for the result of stage `i`, the force of stage `i` was evaluated at `Y (i-1)` and time
`t + k c (i-1)`; the documented stage equations
`M.Y_i - M.Y_0 + k Σ_{j≤i} H_ij L.Y_j = k Σ_{j<i} A_ij F(t + k c_j, Y_j)` hold whenever the linear
solver solves; the new state is the last stage and the new time is `t + k`. -/
theorem rk_step_equations {s : Nat} {P : Sys F ι X V} {T : Tableau F s} {d : Nat → F}
    {w : Nat → RKWorld F ι X V s} {lg : Nat → List (StageLog F ι X)} (h : RKRun P T d w lg)
    (hT : T.Consistent) (n : Nat)
    (hsolve : ∀ p r (i : Fin s), P.M p (P.solve 1 (d n * T.H i.succ i.succ) p r) +
      (d n * T.H i.succ i.succ) • P.L p (P.solve 1 (d n * T.H i.succ i.succ) p r) = r) :
    ∃ Y : Fin (s + 1) → ι → X, Y 0 = (w n).x ∧ (w (n + 1)).x = Y (Fin.last s) ∧
      (w (n + 1)).time = (w n).time + d n ∧ (lg n).length = s ∧
      (∀ i : Fin s, ∃ l, (lg n)[i.val]? = some l ∧ l.result = Y i.succ ∧ l.forceState = Y i.castSucc ∧
        l.forceTime = (w n).time + d n * T.c i.castSucc) ∧
      ∀ (i : Fin (s + 1)) (p : ι), P.M p (Y i p) - P.M p (Y 0 p) +
          d n • ∑ j ∈ Finset.univ.filter (· ≤ i), T.H i j • P.L p (Y j p) =
        d n • ∑ j ∈ Finset.univ.filter (· < i), T.A i j • P.force ((w n).time + d n * T.c j) (Y j) p := by
  obtain ⟨w', lgs, Y, h1, h2, h3, h4, h5, h6, _⟩ := rkStep_good P T (w n) (d n) (h.cache n)
  rw [h.step n] at h1
  simp only [Option.some.injEq, Prod.mk.injEq] at h1
  obtain ⟨rfl, rfl⟩ := h1
  have ht : ∀ j : Fin (s + 1), (if j = 0 then (w n).time else (w n).time + d n * T.c j) =
      (w n).time + d n * T.c j := by
    intro j
    split
    · rename_i hj; rw [hj, hT.start]; simp
    · rfl
  refine ⟨Y, h2, h3.x, ?_, h4, ?_, ?_⟩
  · rw [h3.time, ht, hT.finish, mul_one]
  · intro i
    obtain ⟨l, a, b, _, c, e⟩ := h6 i
    exact ⟨l, a, b, c, by rw [e, ht]⟩
  · intro i p
    refine Fin.cases ?_ (fun i => ?_) i
    · have e1 : Finset.univ.filter (fun j : Fin (s + 1) => j ≤ 0) = {0} := by
        ext j; simp
      have hH : T.H 0 0 = 0 := by
        have := hT.rows .I 0
        rw [hT.start, Fin.sum_univ_succ] at this
        have h0 : ∑ j : Fin s, T.mat .I 0 j.succ = 0 :=
          Finset.sum_eq_zero (fun j _ => hT.implicit 0 j.succ (Fin.succ_pos j))
        rw [h0] at this
        simpa [Tableau.mat] using this
      rw [e1]
      simp [hH]
    · have hs := hsolve p (stageRHS P T (d n) (w n).time Y i.succ p) i
      rw [← h5 i p] at hs
      unfold stageRHS at hs
      simp only [ht] at hs
      rw [← Finset.sum_filter, Finset.sum_sub_distrib] at hs
      have e1 : Finset.univ.filter (fun j : Fin (s + 1) => j ≤ i.succ) =
          insert i.succ (Finset.univ.filter (fun j : Fin (s + 1) => j < i.succ)) := by
        ext j; simp [le_iff_eq_or_lt]
      rw [e1, Finset.sum_insert (by simp), smul_add, Finset.smul_sum, Finset.smul_sum, smul_smul]
      simp only [smul_smul]
      have key : ∀ a b c d e : V, a + b = c + (d - e) → a - c + (b + e) = d := by
        intro a b c d e h
        rw [show a - c + (b + e) = (a + b) - c + e by abel, h]; abel
      exact key _ _ _ _ _ hs

/-- Steps never fail: every initial state and every sequence of timesteps has a run. -/
theorem rk_run_exists {s : Nat} (P : Sys F ι X V) (T : Tableau F s) (d : Nat → F) (x0 : ι → X) (t0 : F)
    (junk : Fin (s + 1) → ι → V) : ∃ w lg, RKRun P T d w lg ∧ (w 0).x = x0 ∧ (w 0).time = t0 := by
  have key : ∀ n (w : { w : RKWorld F ι X V s // CacheOK T w.rk }),
      ∃ w' : { w : RKWorld F ι X V s // CacheOK T w.rk }, ∃ lg, rkStep P T w.1 (d n) = some (w'.1, lg) := by
    intro n w
    obtain ⟨w', lgs, Ys, h1, _, _, _, _, _, hc⟩ := rkStep_good P T w.1 (d n) w.2
    exact ⟨⟨w', hc⟩, lgs, h1⟩
  choose nx lg hx using key
  let w : Nat → { w : RKWorld F ι X V s // CacheOK T w.rk } := fun n =>
    Nat.rec ⟨⟨x0, t0, initRK s junk⟩, by intro k hk; simp [initRK] at hk⟩ (fun n p => nx n p) n
  exact ⟨fun n => (w n).1, fun n => lg n (w n), ⟨⟨junk, rfl⟩, fun n => hx n (w n)⟩, rfl, rfl⟩

/-- Two decoupled equations `x_i' + i x_i = t`, solved exactly. -/
def demoSys : Sys ℚ (Fin 2) ℚ ℚ :=
  ⟨fun _ x => x, fun i x => i.val * x, fun t _ _ => t, fun a b i r => r / (a + b * i.val)⟩

-- The hypotheses are met by this pair with RK443 and varying timesteps.
example : ∃ w lg, RKRun demoSys rk443 (fun k => 1 / (k + 1)) w lg ∧ (rk443 (F := ℚ)).Consistent ∧
    ∀ (n : Nat) (p : Fin 2) (r : ℚ) (i : Fin 4),
      demoSys.M p (demoSys.solve 1 ((1 / ((n : ℚ) + 1)) * rk443.H i.succ i.succ) p r) +
      ((1 / ((n : ℚ) + 1)) * rk443.H i.succ i.succ) •
        demoSys.L p (demoSys.solve 1 ((1 / ((n : ℚ) + 1)) * rk443.H i.succ i.succ) p r) = r := by
  obtain ⟨w, lg, h, _⟩ := rk_run_exists demoSys rk443 (fun k => 1 / (k + 1)) (fun _ => 1) 0 (fun _ _ => 0)
  refine ⟨w, lg, h, rk443_order.1, ?_⟩
  intro n p r i
  have hH : (0:ℚ) < rk443.H i.succ i.succ := by
    fin_cases i <;> simp [rk443]
  have hk : (0:ℚ) < 1 / ((n:ℚ) + 1) * rk443.H i.succ i.succ := by positivity
  generalize (1:ℚ) / ((n:ℚ) + 1) * rk443.H i.succ i.succ = k at hk
  simp only [demoSys, smul_eq_mul]
  have : (1:ℚ) + k * (p.val : ℚ) ≠ 0 := by positivity
  field_simp

end Dedalus.Step
