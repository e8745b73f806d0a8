import Verif.Step.MultistepProps
import Verif.Step.RKProps
import Mathlib.Tactic.NormNum

/-!
# C106: a restarted run continues as the run that wrote the state

The timesteppers are those of `Verif.Step`. `load_state` (`dedalus/core/solvers.py` L632-673) replaces the fields and the clock of the solver and
nothing of its timestepper. The forces are those of the state and time at each step, which is so as long as the iterations of the steps
increase (C51): so the solver that loads a state has not made a step before, except where the claim is refuted.
-/

namespace Dedalus.Restart

open Dedalus.Step

variable {F ι X V : Type} [Field F] [AddCommGroup V] [Module F V] [Fintype ι] [DecidableEq F]

/-- `load_state` on a solver with a multistep scheme (`dedalus/core/solvers.py` L656-672). -/
def loadM (w : World F ι X V) (x : ι → X) (t : F) : World F ι X V := { w with x := x, time := t }

/-- `load_state` on a solver with a Runge-Kutta scheme (`dedalus/core/solvers.py` L656-672). -/
def loadRK {s : Nat} (w : RKWorld F ι X V s) (x : ι → X) (t : F) : RKWorld F ι X V s := { w with x := x, time := t }

/-- The solver after some steps of a multistep scheme (`dedalus/core/solvers.py` L683-711). -/
def stepsM (P : Sys F ι X V) (s : Scheme) (w : World F ι X V) (ds : List F) : Option (World F ι X V) :=
  ds.foldlM (fun w d => (mstep P s w d).map Prod.fst) w

/-- The solver after some steps of a Runge-Kutta scheme (`dedalus/core/solvers.py` L683-711). -/
def stepsRK {s : Nat} (P : Sys F ι X V) (T : Tableau F s) (w : RKWorld F ι X V s) (ds : List F) : Option (RKWorld F ι X V s) :=
  ds.foldlM (fun w d => (rkStep P T w d).map Prod.fst) w

/-- What the user sees of a solver: its fields and its time. -/
def seenM (w : World F ι X V) : (ι → X) × F := (w.x, w.time)

def seenRK {s : Nat} (w : RKWorld F ι X V s) : (ι → X) × F := (w.x, w.time)

/-! ## Runge-Kutta schemes -/

theorem rkStep_seen {s : Nat} (P : Sys F ι X V) (T : Tableau F s) {w v : RKWorld F ι X V s} (hw : CacheOK T w.rk) (hv : CacheOK T v.rk)
    (h : seenRK w = seenRK v) (k : F) : ∃ w' v' lw lv, rkStep P T w k = some (w', lw) ∧ rkStep P T v k = some (v', lv) ∧ seenRK w' = seenRK v' ∧
      CacheOK T w'.rk ∧ CacheOK T v'.rk := by
  obtain ⟨hx, ht⟩ := Prod.mk.inj h
  obtain ⟨w', lw, Y, a1, a2, a3, -, a5, -, a7⟩ := rkStep_good P T w k hw
  obtain ⟨v', lv, Z, b1, b2, b3, -, b5, -, b7⟩ := rkStep_good P T v k hv
  refine ⟨w', v', lw, lv, a1, b1, ?_, a7, b7⟩
  have key : ∀ n (hn : n < s + 1), Y ⟨n, hn⟩ = Z ⟨n, hn⟩ := by
    intro n
    induction n using Nat.strong_induction_on with
    | _ n ih =>
      intro hn
      cases n with
      | zero => exact (a2.trans hx).trans b2.symm
      | succ n =>
        funext p
        have e1 := a5 ⟨n, by omega⟩ p
        have e2 := b5 ⟨n, by omega⟩ p
        have e3 : stageRHS P T k w.time Y (Fin.succ ⟨n, by omega⟩) p = stageRHS P T k v.time Z (Fin.succ ⟨n, by omega⟩) p := by
          unfold stageRHS
          have h0 : Y 0 = Z 0 := ih 0 (by omega) (by omega)
          rw [h0, ht]
          congr 1
          refine Finset.sum_congr rfl fun j _ => ?_
          by_cases hj : j < Fin.succ ⟨n, by omega⟩
          · have : Y j = Z j := ih j.val (by simpa [Fin.lt_def] using hj) j.isLt
            rw [this]
          · rw [if_neg hj, if_neg hj]
        rw [e3] at e1
        exact e1.trans e2.symm
  have hlast : Y (Fin.last s) = Z (Fin.last s) := key s (by omega)
  show (w'.x, w'.time) = (v'.x, v'.time)
  rw [a3.x, b3.x, a3.time, b3.time, hlast, ht]

theorem stepsRK_seen {s : Nat} (P : Sys F ι X V) (T : Tableau F s) : ∀ (ds : List F) {w v : RKWorld F ι X V s}, CacheOK T w.rk → CacheOK T v.rk →
    seenRK w = seenRK v → ∃ w' v', stepsRK P T w ds = some w' ∧ stepsRK P T v ds = some v' ∧ seenRK w' = seenRK v' ∧ CacheOK T w'.rk ∧ CacheOK T v'.rk := by
  intro ds
  induction ds with
  | nil => intro w v hw hv h; exact ⟨w, v, rfl, rfl, h, hw, hv⟩
  | cons d ds ih =>
    intro w v hw hv h
    obtain ⟨w', v', lw, lv, a, b, c, e, f⟩ := rkStep_seen P T hw hv h d
    obtain ⟨w'', v'', a', b', r⟩ := ih e f c
    refine ⟨w'', v'', ?_, ?_, r⟩
    · rw [stepsRK, List.foldlM_cons, a]; exact a'
    · rw [stepsRK, List.foldlM_cons, b]; exact b'

/-- C106, Runge-Kutta schemes. A run makes the steps `ds`; a new solver loads the state that it has reached. Whatever the memory of the new solver, both make the
same further steps `es`. -/
theorem rk_continues {s : Nat} (P : Sys F ι X V) (T : Tableau F s) (junk junk' : Fin (s + 1) → ι → V) (x0 y0 : ι → X) (t0 u0 : F) (ds es : List F) :
    ∃ w w' v', stepsRK P T ⟨x0, t0, initRK s junk⟩ ds = some w ∧ stepsRK P T w es = some w' ∧
      stepsRK P T (loadRK ⟨y0, u0, initRK s junk'⟩ w.x w.time) es = some v' ∧ v'.x = w'.x ∧ v'.time = w'.time := by
  have hfresh : ∀ j : Fin (s + 1) → ι → V, CacheOK T (initRK s j : RKState F ι V s) := fun j k hk => by simp [initRK] at hk
  obtain ⟨w, _, h1, -, -, h4, -⟩ := stepsRK_seen P T ds (w := ⟨x0, t0, initRK s junk⟩) (v := ⟨x0, t0, initRK s junk⟩) (hfresh _) (hfresh _) rfl
  obtain ⟨w', v', e1, e2, e3, -, -⟩ := stepsRK_seen P T es (w := w) (v := loadRK ⟨y0, u0, initRK s junk'⟩ w.x w.time) h4 (hfresh _) rfl
  obtain ⟨hx, ht⟩ := Prod.mk.inj e3
  exact ⟨w, w', v', h1, e1, e2, hx.symm, ht.symm⟩

/-! ## Multistep schemes -/

/-- A step, given its coefficients and its right-hand side. -/
theorem mstep_eq (P : Sys F ι X V) (s : Scheme) (w : World F ι X V) (k : F) (hc : ∀ i, w.ms.solvers i = w.ms.params) {co : Coeffs F} {a0 b0 : F} {rhs : ι → V}
    (h1 : s.coeffs ((rotate w.ms.dt).set 0 k) w.ms.iteration = some co) (ha : co.a[0]? = some a0) (hb : co.b[0]? = some b0)
    (hr : buildRHS co ((rotate w.ms.MX).set 0 (fun i => P.M i (w.x i))) ((rotate w.ms.LX).set 0 (fun i => P.L i (w.x i)))
      ((rotate w.ms.FX).set 0 (P.force w.time w.x)) = some rhs) :
    ∃ w' lg, mstep P s w k = some (w', lg) ∧ w'.x = (fun i => P.solve a0 b0 i (rhs i)) ∧ w'.time = w.time + k ∧
      w'.ms.dt = (rotate w.ms.dt).set 0 k ∧ w'.ms.MX = (rotate w.ms.MX).set 0 (fun i => P.M i (w.x i)) ∧
      w'.ms.LX = (rotate w.ms.LX).set 0 (fun i => P.L i (w.x i)) ∧ w'.ms.FX = (rotate w.ms.FX).set 0 (P.force w.time w.x) ∧
      (∀ i, w'.ms.solvers i = w'.ms.params) := by
  have ex : ∃ r, mstep P s w k = some r := by
    unfold mstep
    simp only [h1, Option.bind_eq_bind, Option.bind_some, ha, hb, hr]
    rw [dif_pos]
    · exact ⟨_, rfl⟩
    · intro i
      by_cases hu : some (a0, b0) = w.ms.params
      · rw [if_neg (by simp [hu]), if_neg (by simp [hu]), hc i, ← hu]; rfl
      · rw [if_pos (by simpa using hu)]; rfl
  obtain ⟨⟨w', lg⟩, hm⟩ := ex
  obtain ⟨a0', b0', rhs', g1, g2, g3, g4, g5, g6, g7, g8, g9, g10, g11, g12, g13, g14, g15⟩ := mstep_some P s w w' k lg hm
  rw [h1] at g1
  have hco := Option.some.inj g1
  subst hco
  rw [ha] at g2
  rw [hb] at g3
  obtain rfl := Option.some.inj g2
  obtain rfl := Option.some.inj g3
  rw [g7, g8, g9, hr] at g4
  obtain rfl := Option.some.inj g4
  have hsol : ∀ i, w'.ms.solvers i = some (a0, b0) := by
    intro i
    rw [g13 i, g12]
    by_cases hu : some (a0, b0) = w.ms.params
    · rw [if_neg (by simp [hu]), hc i, ← hu]
    · rw [if_pos (by simpa using hu)]
  refine ⟨w', lg, hm, ?_, g11, g5, g7, g8, g9, fun i => by rw [hsol i, g10]⟩
  funext i
  have := g14 i
  rw [hsol i] at this
  rw [g15 i, ← Option.some.inj this]

/-- A timestepper of a scheme of one step that has made any steps. -/
structure OneOK (w : World F ι X V) : Prop where
  dt : ∃ a, w.ms.dt = [a]
  MX : ∃ a, w.ms.MX = [a]
  LX : ∃ a, w.ms.LX = [a]
  FX : ∃ a, w.ms.FX = [a]
  cache : ∀ i, w.ms.solvers i = w.ms.params

/-- What one step of such a scheme does. -/
theorem mstep_one (P : Sys F ι X V) {s : Scheme} (hs : s.steps = 1) (k : F) : ∃ (a0 b0 : F) (f : F → (ι → X) → ι → V), ∀ w : World F ι X V, OneOK w →
    ∃ w' lg, mstep P s w k = some (w', lg) ∧ OneOK w' ∧ w'.time = w.time + k ∧ w'.x = fun i => P.solve a0 b0 i (f w.time w.x i) := by
  obtain ⟨co, hco, hla, hlb, hlc⟩ : ∃ co : Coeffs F, (∀ it, s.coeffs [k] it = some co) ∧ (∃ a b, co.a = [a, b]) ∧ (∃ a b, co.b = [a, b]) ∧ ∃ a b, co.c = [a, b] := by
    cases s with
    | CNAB1 => exact ⟨_, fun _ => rfl, ⟨_, _, rfl⟩, ⟨_, _, rfl⟩, ⟨_, _, rfl⟩⟩
    | SBDF1 => exact ⟨_, fun _ => rfl, ⟨_, _, rfl⟩, ⟨_, _, rfl⟩, ⟨_, _, rfl⟩⟩
    | _ => simp [Scheme.steps] at hs
  obtain ⟨ca, cb, cc⟩ := co
  obtain ⟨a0, a1, rfl⟩ := hla
  obtain ⟨b0, b1, rfl⟩ := hlb
  obtain ⟨c0, c1, rfl⟩ := hlc
  refine ⟨a0, b0, fun t x => (c1 • P.force t x + (-1 * a1) • fun i => P.M i (x i)) + (-1 * b1) • fun i => P.L i (x i), fun w h => ?_⟩
  obtain ⟨a, h1⟩ := h.dt
  obtain ⟨b, h2⟩ := h.MX
  obtain ⟨c, h3⟩ := h.LX
  obtain ⟨d, h4⟩ := h.FX
  obtain ⟨w', lg, e1, e2, e3, e4, e5, e6, e7, e8⟩ := mstep_eq P s w k h.cache (co := ⟨[a0, a1], [b0, b1], [c0, c1]⟩) (a0 := a0) (b0 := b0)
    (rhs := (c1 • P.force w.time w.x + (-1 * a1) • fun i => P.M i (w.x i)) + (-1 * b1) • fun i => P.L i (w.x i))
    (by rw [h1]; exact hco _) rfl rfl (by rw [h2, h3, h4]; rfl)
  refine ⟨w', lg, e1, ⟨⟨k, by rw [e4, h1]; rfl⟩, ⟨_, by rw [e5, h2]; rfl⟩, ⟨_, by rw [e6, h3]; rfl⟩, ⟨_, by rw [e7, h4]; rfl⟩, e8⟩, e3, e2⟩

theorem stepsM_one (P : Sys F ι X V) {s : Scheme} (hs : s.steps = 1) : ∀ (ds : List F) {w v : World F ι X V}, OneOK w → OneOK v → seenM w = seenM v →
    ∃ w' v', stepsM P s w ds = some w' ∧ stepsM P s v ds = some v' ∧ seenM w' = seenM v' ∧ OneOK w' := by
  intro ds
  induction ds with
  | nil => intro w v hw hv h; exact ⟨w, v, rfl, rfl, h, hw⟩
  | cons d ds ih =>
    intro w v hw hv h
    obtain ⟨hx, ht⟩ := Prod.mk.inj h
    obtain ⟨a0, b0, f, hf⟩ := mstep_one P hs d
    obtain ⟨w', lw, a1, a2, a3, a4⟩ := hf w hw
    obtain ⟨v', lv, c1, c2, c3, c4⟩ := hf v hv
    obtain ⟨w'', v'', e1, e2, r⟩ := ih a2 c2 (show (w'.x, w'.time) = (v'.x, v'.time) by rw [a3, a4, c3, c4, hx, ht])
    refine ⟨w'', v'', ?_, ?_, r⟩
    · rw [stepsM, List.foldlM_cons, a1]; exact e1
    · rw [stepsM, List.foldlM_cons, c1]; exact e2

/-- C106, schemes of one step (CNAB1 and SBDF1). -/
theorem one_step_continues (P : Sys F ι X V) {s : Scheme} (hs : s.steps = 1) (junk junk' : ι → V) (x0 y0 : ι → X) (t0 u0 : F) (ds es : List F) :
    ∃ w w' v', stepsM P s ⟨x0, t0, initMS s junk⟩ ds = some w ∧ stepsM P s w es = some w' ∧
      stepsM P s (loadM ⟨y0, u0, initMS s junk'⟩ w.x w.time) es = some v' ∧ v'.x = w'.x ∧ v'.time = w'.time := by
  have hfresh : ∀ (x : ι → X) (t : F) (j : ι → V), OneOK (⟨x, t, initMS s j⟩ : World F ι X V) := by
    intro x t j
    refine ⟨⟨0, ?_⟩, ⟨j, ?_⟩, ⟨j, ?_⟩, ⟨j, ?_⟩, fun _ => rfl⟩ <;> simp [initMS, hs]
  obtain ⟨w, _, h1, -, -, h4⟩ := stepsM_one P hs ds (hfresh x0 t0 junk) (hfresh x0 t0 junk) rfl
  obtain ⟨w', v', e1, e2, e3, -⟩ := stepsM_one P hs es (w := w) (v := loadM ⟨y0, u0, initMS s junk'⟩ w.x w.time) h4 (hfresh _ _ _) rfl
  obtain ⟨hx, ht⟩ := Prod.mk.inj e3
  exact ⟨w, w', v', h1, e1, e2, hx.symm, ht.symm⟩

/-- C106, every multistep scheme: new solvers that load the same state make the same steps, whatever their memory. So a state can be restarted any number of times,
with the same result. -/
theorem restarts_agree [LinearOrder F] [IsStrictOrderedRing F] (P : Sys F ι X V) (s : Scheme) (d : Nat → F) (hd : ∀ k, 0 < d k) {w v : Nat → World F ι X V}
    {lw lv : Nat → StepLog F ι} (hw : MRun P s d w lw) (hv : MRun P s d v lv) (hx : (w 0).x = (v 0).x) (ht : (w 0).time = (v 0).time) (n : Nat) :
    (w n).x = (v n).x ∧ (w n).time = (v n).time := by
  induction n using Nat.strong_induction_on with
  | _ n ih =>
    cases n with
    | zero => exact ⟨hx, ht⟩
    | succ n =>
      have hst := steps_pos s
      obtain ⟨a0, b0, r, c1, c2, c3, c4, -, -, -, -, -, c10, c11, -, -, c14, c15⟩ := mstep_some P s _ _ _ _ (hw.step n)
      obtain ⟨a0', b0', r', d1, d2, d3, d4, -, -, -, -, -, d10, d11, -, -, d14, d15⟩ := mstep_some P s _ _ _ _ (hv.step n)
      rw [(hw.inv n).dt, recent_push _ hst, (hw.inv n).it] at c1
      rw [(hv.inv n).dt, recent_push _ hst, (hv.inv n).it] at d1
      have hco : (lw n).co = (lv n).co := Option.some.inj (c1.symm.trans d1)
      rw [← hco] at d2 d3 d4
      obtain rfl := Option.some.inj (c2.symm.trans d2)
      obtain rfl := Option.some.inj (c3.symm.trans d3)
      obtain ⟨co', e1, -, e3⟩ := multistep_order s (recent s.steps d (n + 1)) n 0 (by simp [recent]) (by
        rw [take_recent]
        intro k hk
        simp at hk
        obtain ⟨j, _, rfl⟩ := hk
        exact hd _)
      have : co' = (lw n).co := Option.some.inj (e1.symm.trans c1)
      subst this
      obtain ⟨l1, l2, l3⟩ := coeffs_first s _ _ _ c1
      have iw := hw.inv (n + 1)
      have iv := hv.inv (n + 1)
      have hm := buildRHS_eq (lw n).co (w (n + 1)).ms.MX (w (n + 1)).ms.LX (w (n + 1)).ms.FX
        (fun j i => P.M i ((w (n - j)).x i)) (fun j i => P.L i ((w (n - j)).x i)) (fun j => P.force (w (n - j)).time (w (n - j)).x) ⟨l1, l2, l3⟩
        (fun j hj => by have := iw.MX.2 j (by omega) (by omega); simpa using this)
        (fun j hj => by have := iw.LX.2 j (by omega) (by omega); simpa using this)
        (fun j hj => by have := iw.FX.2 j (by omega) (by omega); simpa using this)
      have hm' := buildRHS_eq (lw n).co (v (n + 1)).ms.MX (v (n + 1)).ms.LX (v (n + 1)).ms.FX
        (fun j i => P.M i ((w (n - j)).x i)) (fun j i => P.L i ((w (n - j)).x i)) (fun j => P.force (w (n - j)).time (w (n - j)).x) ⟨l1, l2, l3⟩
        (fun j hj => by have := iv.MX.2 j (by omega) (by omega); rw [(ih (n - j) (by omega)).1]; simpa using this)
        (fun j hj => by have := iv.LX.2 j (by omega) (by omega); rw [(ih (n - j) (by omega)).1]; simpa using this)
        (fun j hj => by have := iv.FX.2 j (by omega) (by omega); rw [(ih (n - j) (by omega)).1, (ih (n - j) (by omega)).2]; simpa using this)
      rw [c4] at hm
      rw [d4] at hm'
      have hr : r = r' := Option.some.inj (hm.trans hm'.symm)
      refine ⟨?_, by rw [c11, d11, (ih n (by omega)).2]⟩
      funext i
      have u1 : (lw n).used i = (a0, b0) := by have := c14 i; rw [iw.cache i, c10] at this; exact (Option.some.inj this).symm
      have u2 : (lv n).used i = (a0, b0) := by have := d14 i; rw [iv.cache i, d10] at this; exact (Option.some.inj this).symm
      rw [c15, d15, u1, u2, hr]

/-- The equation x' = x, solved without implicit terms. -/
def growth : Sys ℚ (Fin 1) ℚ ℚ := ⟨fun _ x => x, fun _ _ => 0, fun _ x i => x i, fun a _ _ r => r / a⟩

/-- A new solver with SBDF2. -/
def newSolver (x : ℚ) : World ℚ (Fin 1) ℚ ℚ := ⟨fun _ => x, 0, initMS .SBDF2 0⟩

/-- C106 refuted for schemes of more steps: with SBDF2 and steps of 1/2 from 1, two steps give 7/3 and the third gives 11/3. A new solver that loads the state after two steps
goes to 7/2 instead, because the history is not saved. -/
theorem multistep_continues_refuted :
    (stepsM growth .SBDF2 (newSolver 1) [1 / 2, 1 / 2]).map (fun w => w.x 0) = some (7 / 3) ∧
    ((stepsM growth .SBDF2 (newSolver 1) [1 / 2, 1 / 2]).bind fun w => (stepsM growth .SBDF2 w [1 / 2]).map fun w' => w'.x 0) = some (11 / 3) ∧
    ((stepsM growth .SBDF2 (newSolver 1) [1 / 2, 1 / 2]).bind fun w =>
      (stepsM growth .SBDF2 (loadM (newSolver 4) w.x w.time) [1 / 2]).map fun w' => w'.x 0) = some (7 / 2) := by decide +kernel

/-- C106 refuted for solvers that have made steps: the step after a state is loaded uses the history of the states before it. From the loaded state 5 a new solver
goes to 15/2; a solver that has made a step from 1 goes to 28/3, and one that has made a step from 2 to 26/3. -/
theorem used_solver_refuted :
    (stepsM growth .SBDF2 (loadM (newSolver 1) (fun _ => 5) 0) [1 / 2]).map (fun w => w.x 0) = some (15 / 2) ∧
    ((stepsM growth .SBDF2 (newSolver 1) [1 / 2]).bind fun w =>
      (stepsM growth .SBDF2 (loadM w (fun _ => 5) 0) [1 / 2]).map fun w' => w'.x 0) = some (28 / 3) ∧
    ((stepsM growth .SBDF2 (newSolver 2) [1 / 2]).bind fun w =>
      (stepsM growth .SBDF2 (loadM w (fun _ => 5) 0) [1 / 2]).map fun w' => w'.x 0) = some (26 / 3) := by decide +kernel

/-! ## Examples -/

/-- Three steps of RK443 on two scalar equations, a restart and two more steps. -/
example : ∃ w w' v', stepsRK (⟨fun _ x => x, fun i x => i.val * x, fun t _ _ => t, fun a b i r => r / (a + b * i.val)⟩ : Sys ℚ (Fin 2) ℚ ℚ) rk443
      ⟨fun _ => 1, 0, initRK 4 0⟩ [1 / 2, 1 / 3, 1 / 3] = some w ∧
    stepsRK (⟨fun _ x => x, fun i x => i.val * x, fun t _ _ => t, fun a b i r => r / (a + b * i.val)⟩ : Sys ℚ (Fin 2) ℚ ℚ) rk443 w [1 / 3, 1 / 5] = some w' ∧
    stepsRK (⟨fun _ x => x, fun i x => i.val * x, fun t _ _ => t, fun a b i r => r / (a + b * i.val)⟩ : Sys ℚ (Fin 2) ℚ ℚ) rk443
      (loadRK ⟨fun _ => 9, 7, initRK 4 fun _ _ => 3⟩ w.x w.time) [1 / 3, 1 / 5] = some v' ∧ v'.x = w'.x ∧ v'.time = w'.time :=
  rk_continues _ rk443 0 (fun _ _ => 3) (fun _ => 1) (fun _ => 9) 0 7 _ _

end Dedalus.Restart
