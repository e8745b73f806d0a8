import Verif.Fourier.Model
import Mathlib.Data.Finset.Prod

/-!
# Operators on Fourier series

Model of the change of variables, the multiplication matrices and the calculus operators of the Fourier bases of
`dedalus/core/basis.py`. Floating point numbers are exact; the roundings that recover integer mode numbers are exact
too and are not modelled. Coefficients are not permuted.
-/

namespace Dedalus.Fourier

/-! ## Change of variables -/

/-- `AffineCOV.__init__` (`dedalus/core/basis.py` L58-67): the bounds. -/
structure Cov where
  nativeLeft : ℝ
  nativeRight : ℝ
  problemLeft : ℝ
  problemRight : ℝ

/-- `native_length` (`dedalus/core/basis.py` L62) -/
noncomputable def Cov.nativeLength (v : Cov) : ℝ := v.nativeRight - v.nativeLeft
/-- `problem_length` (`dedalus/core/basis.py` L65) -/
noncomputable def Cov.problemLength (v : Cov) : ℝ := v.problemRight - v.problemLeft
/-- `native_center` (`dedalus/core/basis.py` L63) -/
noncomputable def Cov.nativeCenter (v : Cov) : ℝ := (v.nativeLeft + v.nativeRight) / 2
/-- `problem_center` (`dedalus/core/basis.py` L66) -/
noncomputable def Cov.problemCenter (v : Cov) : ℝ := (v.problemLeft + v.problemRight) / 2
/-- `stretch` (`dedalus/core/basis.py` L67) -/
noncomputable def Cov.stretch (v : Cov) : ℝ := v.problemLength / v.nativeLength

/-- A position given by the user: a name or a number. -/
inductive Position where
  | name (s : String)
  | num (x : ℝ)

/-- `AffineCOV.problem_coord` (`dedalus/core/basis.py` L69-82); `none` is a `ValueError`. -/
noncomputable def Cov.problemCoord (v : Cov) : Position → Option ℝ
  | .name s =>
    if s = "left" ∨ s = "lower" then some v.problemLeft
    else if s = "right" ∨ s = "upper" then some v.problemRight
    else if s = "center" ∨ s = "middle" then some v.problemCenter
    else none
  | .num x => some (v.problemLeft + (x - v.nativeLeft) / v.nativeLength * v.problemLength)

/-- `AffineCOV.native_coord` (`dedalus/core/basis.py` L84-97). -/
noncomputable def Cov.nativeCoord (v : Cov) : Position → Option ℝ
  | .name s =>
    if s = "left" ∨ s = "lower" then some v.nativeLeft
    else if s = "right" ∨ s = "upper" then some v.nativeRight
    else if s = "center" ∨ s = "middle" then some v.nativeCenter
    else none
  | .num x => some (v.nativeLeft + (x - v.problemLeft) / v.problemLength * v.nativeLength)

/-- `native_bounds` of Fourier bases (`dedalus/core/basis.py` L818). -/
noncomputable def fourierCov (left right : ℝ) : Cov := ⟨0, 2 * Real.pi, left, right⟩

/-! ## Multiplication matrices -/

/-- `np.intersect1d(a, b, assume_unique=True, return_indices=True)`: the pairs of indices of equal elements. -/
def pairs (A B : Nat) (a b : Nat → Int) : Finset (Nat × Nat) :=
  (Finset.range A ×ˢ Finset.range B).filter fun e => a e.1 = b e.2

/-- One block of the data of a sparse matrix: `v` at `(2 * row + d, 2 * col + e)`; repeated entries add up. -/
noncomputable def block (s : Finset (Nat × Nat)) (d e : Nat) (v : ℝ) (p q : Nat) : ℝ :=
  ∑ t ∈ s, if 2 * t.1 + d = p ∧ 2 * t.2 + e = q then v else 0

/-- `k_out[2::2]` and `rows_mn += 1` (`dedalus/core/basis.py` L1150-1151). -/
def pairsShift (A B : Nat) (m : Int) : Finset (Nat × Nat) :=
  (pairs (A - 1) B (fun r => ((r + 1 : Nat) : Int)) (fun c => (c : Int) - m)).image fun e => (e.1 + 1, e.2)

/-- The number of wavenumbers of the operand: `k_arg` (`dedalus/core/basis.py` L1136-1139). -/
def argHalf : Option Nat → Nat
  | none => 1
  | some h => h

/-- `k_arg.size` (`dedalus/core/basis.py` L1136-1139) -/
def argSize : Option Nat → Nat
  | none => 1
  | some h => 2 * h

/-- The entries of the matrix for wavenumber `m > 0` (`dedalus/core/basis.py` L1147-1178). -/
noncomputable def realProductEntries (Hout Harg m i : Nat) (p q : Nat) : ℝ :=
  let P := pairs Hout Harg (fun r => (r : Int)) (fun c => (m : Int) + c)
  let Q := pairs Hout Harg (fun r => (r : Int)) (fun c => (m : Int) - c)
  let R := pairsShift Hout Harg m
  if i % 2 = 0 then
    block P 0 0 (1 / 2) p q + block Q 0 0 (1 / 2) p q + block R 0 0 (1 / 2) p q +
    block P 1 1 (1 / 2) p q + block Q 1 1 (-(1 / 2)) p q + block R 1 1 (1 / 2) p q
  else
    block P 1 0 (1 / 2) p q + block Q 1 0 (1 / 2) p q + block R 1 0 (-(1 / 2)) p q +
    block P 0 1 (-(1 / 2)) p q + block Q 0 1 (1 / 2) p q + block R 0 1 (1 / 2) p q

/-- All columns of the entries lie in the matrix, or `coo_matrix` raises. -/
def columnsFit (Hout Harg cols m : Nat) : Prop :=
  ∀ e ∈ pairs Hout Harg (fun r => (r : Int)) (fun c => (m : Int) + c) ∪
    pairs Hout Harg (fun r => (r : Int)) (fun c => (m : Int) - c) ∪ pairsShift Hout Harg m, 2 * e.2 + 1 < cols

instance (Hout Harg cols m : Nat) : Decidable (columnsFit Hout Harg cols m) := by
  unfold columnsFit; infer_instance

/-- `RealFourier.product_matrix` (`dedalus/core/basis.py` L1127-1182) for a basis of `2 * Hself` coefficients, an operand of
`2 * Harg` coefficients or a constant, and `2 * Hout` output coefficients. `none` is an exception. -/
noncomputable def realProductMatrix (Hself Hout : Nat) (arg : Option Nat) (i : Nat) : Option (Nat → Nat → ℝ) :=
  if 2 * Hself ≤ 2 ∨ 2 * Hself ≤ i then none
  else if i / 2 = 0 then
    if i % 2 = 0 then some fun p q => if p = q then 1 else 0
    else some fun _ _ => 0
  else if columnsFit Hout (argHalf arg) (argSize arg) (i / 2) then
    some (realProductEntries Hout (argHalf arg) (i / 2) i)
  else none

/-- `ComplexFourier._native_wavenumbers` (`dedalus/core/basis.py` L960-970). -/
def nativeWavenumber (size m : Nat) : Int :=
  if m ≤ size / 2 then m
  else if size % 2 = 1 then -((size / 2 : Nat) : Int) + (m - (size / 2 + 1) : Nat)
  else 1 - ((size / 2 : Nat) : Int) + (m - (size / 2 + 1) : Nat)

/-- `k_arg` (`dedalus/core/basis.py` L986-989) -/
def complexArg : Option Nat → Nat × (Nat → Int)
  | none => (1, fun _ => 0)
  | some n => (n, nativeWavenumber n)

/-- `ComplexFourier.product_matrix` (`dedalus/core/basis.py` L981-995). -/
noncomputable def complexProductMatrix (self out : Nat) (arg : Option Nat) (i : Nat) : Option (Nat → Nat → ℂ) :=
  if self ≤ 1 ∨ self ≤ i then none
  else some fun p q => ∑ t ∈ pairs out (complexArg arg).1 (nativeWavenumber out)
    (fun c => (complexArg arg).2 c + nativeWavenumber self i), if t.1 = p ∧ t.2 = q then 1 else 0

/-! ## Calculus -/

/-- `DifferentiateComplexFourier._group_matrix` applied to each group (`dedalus/core/basis.py` L1029-1034). -/
noncomputable def diffComplex (v : Cov) (size : Nat) (c : Nat → ℂ) (m : Nat) : ℂ :=
  Complex.I * ((nativeWavenumber size m : ℝ) / v.stretch : ℝ) * c m

/-- `DifferentiateRealFourier._group_matrix` applied to each group (`dedalus/core/basis.py` L1217-1224): the rows are
`[0, -k]` and `[k, 0]`. -/
noncomputable def diffReal (v : Cov) (c : Nat → ℝ) (m : Nat) : ℝ :=
  let k : ℝ := ((m / 2 : Nat) : ℝ) / v.stretch
  if m % 2 = 0 then 0 * c m + -k * c (m + 1) else k * c (m - 1) + 0 * c m

/-- `InterpolateComplexFourier._full_matrix` (`dedalus/core/basis.py` L1049-1056). -/
noncomputable def interpComplex (v : Cov) (size : Nat) (pos : Position) (c : Nat → ℂ) : Option ℂ :=
  (v.nativeCoord pos).map fun (x : ℝ) =>
    ∑ m ∈ Finset.range size, Complex.exp (Complex.I * nativeWavenumber size m * (x : ℂ)) * c m

/-- `InterpolateRealFourier._full_matrix` (`dedalus/core/basis.py` L1240-1250). -/
noncomputable def interpReal (v : Cov) (half : Nat) (pos : Position) (c : Nat → ℝ) : Option ℝ :=
  (v.nativeCoord pos).map fun x =>
    ∑ m ∈ Finset.range (2 * half),
      (if m % 2 = 0 then Real.cos (((m / 2 : Nat) : ℝ) * x) else -Real.sin (((m / 2 : Nat) : ℝ) * x)) * c m

/-- `IntegrateComplexFourier` (`dedalus/core/basis.py` L1071-1082): only group 0 is used. -/
noncomputable def integComplex (v : Cov) (c : Nat → ℂ) : ℂ := v.problemLength * c 0

/-- `IntegrateRealFourier` (`dedalus/core/basis.py` L1264-1276): the row `[L, 0]` of group 0. -/
noncomputable def integReal (v : Cov) (c : Nat → ℝ) : ℝ := v.problemLength * c 0 + 0 * c 1

/-- `AverageComplexFourier` (`dedalus/core/basis.py` L1096-1105). -/
noncomputable def avgComplex (c : Nat → ℂ) : ℂ := 1 * c 0

/-- `AverageRealFourier` (`dedalus/core/basis.py` L1290-1300). -/
noncomputable def avgReal (c : Nat → ℝ) : ℝ := 1 * c 0 + 0 * c 1

/-- `ConvertConstantComplexFourier` (`dedalus/core/basis.py` L1006-1015): coefficients of a constant. -/
noncomputable def constComplex (size : Nat) (u : ℂ) (m : Nat) : ℂ := if nativeWavenumber size m = 0 then 1 / 1 * u else 0

/-- `ConvertConstantRealFourier` (`dedalus/core/basis.py` L1193-1203). -/
noncomputable def constReal (u : ℝ) (m : Nat) : ℝ := if m / 2 = 0 then (if m % 2 = 0 then 1 / 1 * u else 0 * u) else 0

end Dedalus.Fourier
