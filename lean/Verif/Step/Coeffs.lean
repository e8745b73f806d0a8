import Mathlib.Algebra.Field.Basic

/-!
# Model: coefficients of the multistep IMEX schemes

Models `compute_coefficients` of every `MultistepIMEX` subclass in
/repo/dedalus/core/timesteppers.py. Floats are elements of a field `F`. `np.zeros(amax+1)` followed
by assignments is written as the list of its entries. `k, *rest = timesteps` raises ValueError when
there are too few timesteps: `none`.
-/

namespace Dedalus.Step

variable {F : Type} [Field F]

/-- The arrays `a`, `b`, `c` returned by `compute_coefficients`. timesteppers.py L225. -/
structure Coeffs (F : Type) where
  a : List F
  b : List F
  c : List F

/-- timesteppers.py L205-225. -/
def cnab1 : List F → Option (Coeffs F)
  | k0 :: _ => some ⟨[1 / k0, -1 / k0], [1 / 2, 1 / 2], [0, 1]⟩
  | _ => none

/-- timesteppers.py L238-258. -/
def sbdf1 : List F → Option (Coeffs F)
  | k0 :: _ => some ⟨[1 / k0, -1 / k0], [1, 0], [0, 1]⟩
  | _ => none

/-- timesteppers.py L270-293. -/
def cnab2 (timesteps : List F) (iteration : Nat) : Option (Coeffs F) :=
  if iteration < 1 then cnab1 timesteps else
  match timesteps with
  | k1 :: k0 :: _ =>
    let w1 := k1 / k0
    some ⟨[1 / k1, -1 / k1, 0], [1 / 2, 1 / 2, 0], [0, 1 + w1 / 2, -w1 / 2]⟩
  | _ => none

/-- timesteppers.py L308-332. -/
def mcnab2 (timesteps : List F) (iteration : Nat) : Option (Coeffs F) :=
  if iteration < 1 then cnab1 timesteps else
  match timesteps with
  | k1 :: k0 :: _ =>
    let w1 := k1 / k0
    some ⟨[1 / k1, -1 / k1, 0], [(8 + 1 / w1) / 16, (7 - 1 / w1) / 16, 1 / 16],
      [0, 1 + w1 / 2, -w1 / 2]⟩
  | _ => none

/-- timesteppers.py L347-370. -/
def sbdf2 (timesteps : List F) (iteration : Nat) : Option (Coeffs F) :=
  if iteration < 1 then sbdf1 timesteps else
  match timesteps with
  | k1 :: k0 :: _ =>
    let w1 := k1 / k0
    some ⟨[(1 + 2 * w1) / (1 + w1) / k1, -(1 + w1) / k1, w1 ^ 2 / (1 + w1) / k1], [1, 0, 0],
      [0, 1 + w1, -w1]⟩
  | _ => none

/-- timesteppers.py L385-409. -/
def cnlf2 (timesteps : List F) (iteration : Nat) : Option (Coeffs F) :=
  if iteration < 1 then cnab1 timesteps else
  match timesteps with
  | k1 :: k0 :: _ =>
    let w1 := k1 / k0
    some ⟨[1 / (1 + w1) / k1, (w1 - 1) / k1, -w1 ^ 2 / (1 + w1) / k1],
      [1 / w1 / 2, (1 - 1 / w1) / 2, 1 / 2], [0, 1, 0]⟩
  | _ => none

/-- timesteppers.py L424-450. -/
def sbdf3 (timesteps : List F) (iteration : Nat) : Option (Coeffs F) :=
  if iteration < 2 then sbdf2 timesteps iteration else
  match timesteps with
  | k2 :: k1 :: k0 :: _ =>
    let w2 := k2 / k1
    let w1 := k1 / k0
    some ⟨[(1 + w2 / (1 + w2) + w1 * w2 / (1 + w1 * (1 + w2))) / k2,
        (-1 - w2 - w1 * w2 * (1 + w2) / (1 + w1)) / k2,
        w2 ^ 2 * (w1 + 1 / (1 + w2)) / k2,
        -w1 ^ 3 * w2 ^ 2 * (1 + w2) / (1 + w1) / (1 + w1 + w1 * w2) / k2],
      [1, 0, 0, 0],
      [0, (1 + w2) * (1 + w1 * (1 + w2)) / (1 + w1), -w2 * (1 + w1 * (1 + w2)),
        w1 * w1 * w2 * (1 + w2) / (1 + w1)]⟩
  | _ => none

/-- timesteppers.py L465-499. -/
def sbdf4 (timesteps : List F) (iteration : Nat) : Option (Coeffs F) :=
  if iteration < 3 then sbdf3 timesteps iteration else
  match timesteps with
  | k3 :: k2 :: k1 :: k0 :: _ =>
    let w3 := k3 / k2
    let w2 := k2 / k1
    let w1 := k1 / k0
    let A1 := 1 + w1 * (1 + w2)
    let A2 := 1 + w2 * (1 + w3)
    let A3 := 1 + w1 * A2
    some ⟨[(1 + w3 / (1 + w3) + w2 * w3 / A2 + w1 * w2 * w3 / A3) / k3,
        (-1 - w3 * (1 + w2 * (1 + w3) / (1 + w2) * (1 + w1 * A2 / A1))) / k3,
        w3 * (w3 / (1 + w3) + w2 * w3 * (A3 + w1) / (1 + w1)) / k3,
        -w2 ^ 3 * w3 ^ 2 * (1 + w3) / (1 + w2) * A3 / A2 / k3,
        (1 + w3) / (1 + w1) * A2 / A1 * w1 ^ 4 * w2 ^ 3 * w3 ^ 2 / A3 / k3],
      [1, 0, 0, 0, 0],
      [0, w2 * (1 + w3) / (1 + w2) * ((1 + w3) * (A3 + w1) + (1 + w1) / w2) / A1,
        -A2 * A3 * w3 / (1 + w1),
        w2 ^ 2 * w3 * (1 + w3) / (1 + w2) * A3,
        -w1 ^ 3 * w2 ^ 2 * w3 * (1 + w3) / (1 + w1) * A2 / A1]⟩
  | _ => none

/-- The registered multistep schemes. timesteppers.py L189-463 (`@add_scheme`). -/
inductive Scheme | CNAB1 | SBDF1 | CNAB2 | MCNAB2 | SBDF2 | CNLF2 | SBDF3 | SBDF4
deriving DecidableEq, Repr

/-- The class attribute `steps`; `amax = bmax = cmax = steps` in every class.
timesteppers.py L200-203, 233-236, 265-268, 303-306, 342-345, 380-383, 419-422, 460-463. -/
def Scheme.steps : Scheme → Nat
  | .CNAB1 | .SBDF1 => 1
  | .CNAB2 | .MCNAB2 | .SBDF2 | .CNLF2 => 2
  | .SBDF3 => 3
  | .SBDF4 => 4

/-- `compute_coefficients` of the scheme. -/
def Scheme.coeffs (s : Scheme) (timesteps : List F) (iteration : Nat) : Option (Coeffs F) :=
  match s with
  | .CNAB1 => cnab1 timesteps
  | .SBDF1 => sbdf1 timesteps
  | .CNAB2 => cnab2 timesteps iteration
  | .MCNAB2 => mcnab2 timesteps iteration
  | .SBDF2 => sbdf2 timesteps iteration
  | .CNLF2 => cnlf2 timesteps iteration
  | .SBDF3 => sbdf3 timesteps iteration
  | .SBDF4 => sbdf4 timesteps iteration

end Dedalus.Step
