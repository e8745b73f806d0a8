import Verif.Step.Multistep
import Mathlib.Data.Fin.VecNotation
import Mathlib.Data.Real.Sqrt

/-!
# Model: `RungeKuttaIMEX` stepping and its tableaus

Models `RungeKuttaIMEX.__init__`, `RungeKuttaIMEX.step` and the tableaus of
/repo/dedalus/core/timesteppers.py (L529-741). Subproblems, forces and matrices as in
`Verif.Step.Multistep`; the factorisation of `M + k_Hii*L` is recorded by `k_Hii`. The arrays `LX` and `F` have
`stages` entries in the code; here they are indexed by `Fin (stages+1)` and the last entry is never
touched.
-/

namespace Dedalus.Step

variable {F ι X V : Type} [Field F] [AddCommGroup V] [Module F V]

/-- Class attributes `stages`, `c`, `A`, `H`. timesteppers.py L647-741. -/
structure Tableau (F : Type) (s : Nat) where
  c : Fin (s + 1) → F
  A : Fin (s + 1) → Fin (s + 1) → F
  H : Fin (s + 1) → Fin (s + 1) → F

/-- Persistent attributes: `_LHS_params`, `LX`, `F`, and `sp.LHS_solvers`.
timesteppers.py L537-550, L577-583. -/
structure RKState (F ι V : Type) (s : Nat) where
  params : Option F
  LX : Fin (s + 1) → ι → V
  FX : Fin (s + 1) → ι → V
  solvers : ι → Fin (s + 1) → Option F

/-- Solver state. -/
structure RKWorld (F ι X V : Type) (s : Nat) where
  x : ι → X
  time : F
  rk : RKState F ι V s

/-- `__init__`: no factorisations, arbitrary memory. timesteppers.py L537-550. -/
def initRK (s : Nat) (junk : Fin (s + 1) → ι → V) : RKState F ι V s :=
  ⟨none, junk, junk, fun _ _ => none⟩

/-- Report of one stage: the state and time at which the force was evaluated, the factorisation
used by each subproblem, and the new stage value. -/
structure StageLog (F ι X : Type) where
  forceTime : F
  forceState : ι → X
  used : ι → F
  result : ι → X

/-- One pass of the stage loop, `i` from 1 to `stages`. timesteppers.py L596-644. -/
def rkStage {s : Nat} (P : Sys F ι X V) (T : Tableau F s) [Fintype ι] (k t0 : F) (update : Bool)
    (MX0 : ι → V) (w : RKWorld F ι X V s) (i : Fin s) : Option (RKWorld F ι X V s × StageLog F ι X) :=
  -- L599-605 LX[i-1], already done for i = 1
  let LX := if 0 < i.val then Function.update w.rk.LX i.castSucc (fun p => P.L p (w.x p)) else w.rk.LX
  -- L608-615 F[i-1]
  let FX := Function.update w.rk.FX i.castSucc (P.force w.time w.x)
  -- L618-624 RHS
  let rhs := ((List.finRange (s + 1)).filter (fun j => j < i.succ)).foldl (fun (y : ι → V) j =>
    (y + (k * T.A i.succ j) • FX j) + (-(k * T.H i.succ j)) • LX j) MX0
  -- L627-643 solve
  let solvers := if update then
      fun p => Function.update (w.rk.solvers p) i.succ (some (k * T.H i.succ i.succ))
    else w.rk.solvers
  if h : ∀ p, (solvers p i.succ).isSome then
    let used := fun p => (solvers p i.succ).get (h p)
    let x := fun p => P.solve 1 (used p) p (rhs p)
    some ({ x := x, time := t0 + k * T.c i.succ
            rk := { params := w.rk.params, LX := LX, FX := FX, solvers := solvers } },
          { forceTime := w.time, forceState := w.x, used := used, result := x })
  else none

/-- The loop over stages. -/
def rkLoop {s : Nat} (P : Sys F ι X V) (T : Tableau F s) [Fintype ι] (k t0 : F) (update : Bool)
    (MX0 : ι → V) : List (Fin s) → RKWorld F ι X V s →
      Option (RKWorld F ι X V s × List (StageLog F ι X))
  | [], w => some (w, [])
  | i :: is, w => do
    let (w', lg) ← rkStage P T k t0 update MX0 w i
    let (w'', lgs) ← rkLoop P T k t0 update MX0 is w'
    some (w'', lg :: lgs)

/-- `RungeKuttaIMEX.step`. timesteppers.py L552-644. -/
def rkStep {s : Nat} [DecidableEq F] [Fintype ι] (P : Sys F ι X V) (T : Tableau F s)
    (w : RKWorld F ι X V s) (k : F) : Option (RKWorld F ι X V s × List (StageLog F ι X)) :=
  -- L577-583
  let update := decide (some k ≠ w.rk.params)
  let solvers := if update then fun _ _ => none else w.rk.solvers
  -- L586-591
  let MX0 := fun p => P.M p (w.x p)
  let LX := Function.update w.rk.LX 0 (fun p => P.L p (w.x p))
  rkLoop P T k w.time update MX0 (List.finRange s)
    { w with rk := { params := some k, LX := LX, FX := w.rk.FX, solvers := solvers } }

/-- timesteppers.py L648-660. -/
def rk111 : Tableau F 1 :=
  ⟨![0, 1], ![![0, 0], ![1, 0]], ![![0, 0], ![0, 1]]⟩

/-- timesteppers.py L663-681. -/
noncomputable def rk222 : Tableau ℝ 2 :=
  let γ : ℝ := (2 - Real.sqrt 2) / 2
  let δ : ℝ := 1 - 1 / γ / 2
  ⟨![0, γ, 1], ![![0, 0, 0], ![γ, 0, 0], ![δ, 1 - δ, 0]], ![![0, 0, 0], ![0, γ, 0], ![0, 1 - γ, γ]]⟩

/-- timesteppers.py L684-702. -/
def rk443 : Tableau F 4 :=
  ⟨![0, 1/2, 2/3, 1/2, 1],
   ![![0, 0, 0, 0, 0],
     ![1/2, 0, 0, 0, 0],
     ![11/18, 1/18, 0, 0, 0],
     ![5/6, -5/6, 1/2, 0, 0],
     ![1/4, 7/4, 3/4, -7/4, 0]],
   ![![0, 0, 0, 0, 0],
     ![0, 1/2, 0, 0, 0],
     ![0, 1/6, 1/2, 0, 0],
     ![0, -1/2, 1/2, 1/2, 0],
     ![0, 3/2, -3/2, 1/2, 1/2]]⟩

/-- timesteppers.py L705-727. -/
def rksmr : Tableau F 3 :=
  let α1 : F := 29/96
  let α2 : F := -3/40
  let α3 : F := 1/6
  let β1 : F := 37/160
  let β2 : F := 5/24
  let β3 : F := 1/6
  let γ1 : F := 8/15
  let γ2 : F := 5/12
  let γ3 : F := 3/4
  let ζ2 : F := -17/60
  let ζ3 : F := -5/12
  ⟨![0, 8/15, 2/3, 1],
   ![![0, 0, 0, 0], ![γ1, 0, 0, 0], ![γ1 + ζ2, γ2, 0, 0], ![γ1 + ζ2, γ2 + ζ3, γ3, 0]],
   ![![0, 0, 0, 0], ![α1, β1, 0, 0], ![α1, β1 + α2, β2, 0], ![α1, β1 + α2, β2 + α3, β3]]⟩

/-- timesteppers.py L730-741. -/
def rkgfy : Tableau F 2 :=
  ⟨![0, 1, 1], ![![0, 0, 0], ![1, 0, 0], ![1/2, 1/2, 0]], ![![0, 0, 0], ![1/2, 1/2, 0], ![1/2, 0, 1/2]]⟩

end Dedalus.Step
