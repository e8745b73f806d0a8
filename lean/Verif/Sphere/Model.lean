import Verif.Jacobi.Model

/-!
# Spin-weighted spherical harmonics

Model of `dedalus/libraries/dedalus_sphere/sphere.py`, of `SWSHColatitudeTransform` in `dedalus/core/transforms.py` and of
`SphereBasis` and its operators in `dedalus/core/basis.py`. Floating point numbers are real numbers. Data are elements of a
real vector space, so that one model covers real data, complex data and arrays along the other axes.
-/

namespace Dedalus.Sphere

/-! ## Coefficient slots -/

/-- The number of rows and columns of coefficient data, complex dtype and `mmax > 0` (`SphereBasis.global_shape`,
`dedalus/core/basis.py` L2798-2805). -/
def shapeComplex (Nphi Lmax : Nat) : Nat × Nat := (Nphi / 2, Lmax + 1 + (Lmax + 1 - Nphi / 2))

/-- The same for real dtype (`dedalus/core/basis.py` L2806-2807). -/
def shapeReal (Nphi Lmax : Nat) : Nat × Nat := (Nphi / 2, Lmax + 1 + (Lmax + 2 - Nphi / 2))

/-- `SphereBasis.elements_to_groups` in coefficient space, complex dtype (`dedalus/core/basis.py` L2852-2872): `(m, ell)`.
The assignments to masked entries are in the order of the code. -/
def groupComplex (Nphi Lmax : Nat) (i j : Nat) : Int × Int :=
  let shift : Int := max 0 ((Lmax : Int) + 1 - (Nphi / 2 : Nat))
  let g : Int × Int := (i, j - shift)
  let g := if g.2 < g.1 then ((i : Int) - ((Nphi + 1) / 2 : Nat), (Lmax : Int) - j) else g
  let g := if i = 0 then (0, (j : Int)) else g
  if i = 0 ∧ j > Lmax then (((Nphi / 2 : Nat) : Int), j - shift) else g

/-- `SphereBasis.elements_to_groups` in coefficient space, real dtype (`dedalus/core/basis.py` L2873-2888). -/
def groupReal (Nphi Lmax : Nat) (i j : Nat) : Int × Int :=
  let shift : Int := max 0 ((Lmax : Int) + 2 - (Nphi / 2 : Nat))
  let g : Int × Int := ((i / 2 : Nat), j - shift)
  let g := if g.2 < g.1 then (((Nphi / 2 : Nat) : Int) - 1 - g.1, (Lmax : Int) - j) else g
  let g := if i < 2 then (0, (j : Int)) else g
  if i < 2 ∧ j > Lmax then (((Nphi / 2 : Nat) : Int) - 1, j - shift) else g

/-- `forward_m_perm` for complex dtype (`dedalus/core/basis.py` L2751-2754). -/
def permComplex (Nphi k : Nat) : Nat := k / 2 + Nphi / 2 * (k % 2)

/-- `forward_m_perm` for real dtype and `shape[0] > 1` (`dedalus/core/basis.py` L2757-2764). -/
def permReal (Nphi k : Nat) : Nat :=
  (k % 2 + k / 2) * (1 - k / 2 % 2) + (Nphi - 1 + k % 2 - k / 2) * (k / 2 % 2)

/-- `ComplexFourier._native_wavenumbers` (`dedalus/core/basis.py` L961-970), element `k`. -/
def nativeComplex (size k : Nat) : Int :=
  let kmax := size / 2
  if size % 2 = 1 then (if k < kmax + 1 then (k : Int) else -(kmax : Int) + ((k : Int) - (kmax + 1)))
  else (if k < kmax + 1 then (k : Int) else 1 - (kmax : Int) + ((k : Int) - (kmax + 1)))

/-- `RealFourier._native_wavenumbers` (`dedalus/core/basis.py` L1118-1121), element `k`. -/
def nativeReal (k : Nat) : Int := (k / 2 : Nat)

/-- `ell_slice` of `SphereBasis.m_maps` (`dedalus/core/basis.py` L2957-2968) as the list of columns that it selects from a row
of coefficient data: the columns that belong to `m`, reversed if they start at `0` and `m != 0`. -/
def ellColumns (group : Nat → Nat → Int × Int) (width row : Nat) (m : Int) : List Nat :=
  let cols := (List.range width).filter fun j => (group row j).1 = m
  if cols.head? = some 0 ∧ m ≠ 0 then cols.reverse else cols

/-- `ell_size` (`dedalus/core/basis.py` L3213-3214). -/
def ellSize (Lmax : Nat) (m : Int) : Int := Lmax + 1 - |m|

/-! ## Harmonics -/

/-- `spin2Jacobi` without increments (`dedalus/libraries/dedalus_sphere/sphere.py` L25-31): `n`, `a` and `b`. -/
def spin2Jacobi (Lmax : Int) (m s : Int) : Int × Int × Int := (Lmax + 1 - max |m| |s|, |m + s|, |m - s|)

/-- `spin2Jacobi` with `ds` (`dedalus/libraries/dedalus_sphere/sphere.py` L33-42): `dn`, `da` and `db`. -/
def spin2JacobiStep (Lmax : Int) (m s ds : Int) : Int × Int × Int :=
  (Lmax + 1 - max |m| |s + ds| - (spin2Jacobi Lmax m s).1, |m + (s + ds)| - |m + s|, |m - (s + ds)| - |m - s|)

/-- `Jacobi.polynomials` with a given `init` (`dedalus/libraries/dedalus_sphere/jacobi.py` L28-81), row `k`. -/
noncomputable def polynomialsInit (n : Nat) (a b z init : ℝ) : Nat → ℝ
  | 0 => init
  | 1 => (z - Jacobi.opZ.entry (n + 1) a b 0 0) * init / Jacobi.opZ.entry (n + 1) a b 1 0
  | k + 2 => ((z - Jacobi.opZ.entry (n + 1) a b (k + 1) (k + 1)) * polynomialsInit n a b z init (k + 1) -
      Jacobi.opZ.entry (n + 1) a b k (k + 1) * polynomialsInit n a b z init k) / Jacobi.opZ.entry (n + 1) a b (k + 2) (k + 1)

/-- `Jacobi.measure` with `log=True` (`dedalus/libraries/dedalus_sphere/jacobi.py` L147-186), for `-1 < z < 1`. -/
noncomputable def logMeasure (a b z : ℝ) : ℝ :=
  (if a ≠ 0 then a * Real.log (1 - z) else 0) + (if b ≠ 0 then b * Real.log (1 + z) else 0) - Real.log (Jacobi.mass a b)

/-- `harmonics` (`dedalus/libraries/dedalus_sphere/sphere.py` L45-66): row `k`, of `n` rows, at `cos_theta = z`. -/
noncomputable def harmonics (Lmax : Int) (m s : Int) (z : ℝ) (k : Nat) : ℝ :=
  let p := spin2Jacobi Lmax m s
  polynomialsInit p.1.toNat p.2.1 p.2.2 z (Real.exp ((1 / 2) * logMeasure p.2.1 p.2.2 z) * (-1) ^ (max m (-s))) k

/-! ## Colatitude transform -/

/-- Grid and weights of `quadrature` (`dedalus/libraries/dedalus_sphere/sphere.py` L8-22, `dedalus/core/transforms.py`
L1290-1292) from the guess `g`. -/
noncomputable def grid (Ntheta : Nat) (g : Nat → ℝ) (i : Nat) : ℝ × ℝ := Jacobi.quadrature Ntheta 0 0 g i

/-- `_forward_SWSH_matrices` (`dedalus/core/transforms.py` L1294-1316) for `|m| ≤ Lmax`, row `r` and column `i`. A row is
filled if it is at or after `Lmin - |m|` and zeroed if it is at or after the bound of the slice `[Ntheta - |m|:]` of an
axis of length `Lmax + 1 - |m|`. -/
noncomputable def forwardMatrix (Ntheta Lmax : Nat) (m s : Int) (g : Nat → ℝ) (r i : Nat) : ℝ :=
  let start := (max |m| |s| - |m|).toNat
  if Jacobi.sliceBound (Lmax + 1 - m.natAbs) ((Ntheta : Int) - |m|) ≤ r then 0
  else if start ≤ r then harmonics Lmax m s (grid Ntheta g i).1 (r - start) * (grid Ntheta g i).2
  else 0

/-- `_backward_SWSH_matrices` (`dedalus/core/transforms.py` L1318-1340) for `|m| ≤ Lmax`, row `i` and column `r`. -/
noncomputable def backwardMatrix (Ntheta Lmax : Nat) (m s : Int) (g : Nat → ℝ) (i r : Nat) : ℝ :=
  let start := (max |m| |s| - |m|).toNat
  if Jacobi.sliceBound (Lmax + 1 - m.natAbs) ((Ntheta : Int) - |m|) ≤ r then 0
  else if start ≤ r then harmonics Lmax m s (grid Ntheta g i).1 (r - start)
  else 0

section
variable {V : Type} [AddCommGroup V] [Module ℝ V]

/-- `forward_reduced` (`dedalus/core/transforms.py` L1260-1273) for one `m`: `cdata` is kept if `|m| > Lmax`. -/
noncomputable def forward (Ntheta Lmax : Nat) (m s : Int) (g : Nat → ℝ) (gdata cdata : Nat → V) (r : Nat) : V :=
  if |m| ≤ Lmax then ∑ i ∈ Finset.range Ntheta, forwardMatrix Ntheta Lmax m s g r i • gdata i else cdata r

/-- `backward_reduced` (`dedalus/core/transforms.py` L1275-1288) for one `m`. -/
noncomputable def backward (Ntheta Lmax : Nat) (m s : Int) (g : Nat → ℝ) (cdata : Nat → V) (i : Nat) : V :=
  if |m| > Lmax then 0
  else ∑ r ∈ Finset.range (Lmax + 1 - m.natAbs), backwardMatrix Ntheta Lmax m s g i r • cdata r

/-- `InterpolateColatitude._interpolation_vectors` (`dedalus/core/basis.py` L5680-5705) applied to the grid data of one `m`
with `|m| ≤ Lmax`: the rows from `Lmin - |m|` on of the forward matrix, weighted with the harmonics at `cos theta`. -/
noncomputable def interpolate (Ntheta Lmax : Nat) (m s : Int) (g : Nat → ℝ) (theta : ℝ) (gdata : Nat → V) : V :=
  let start := (max |m| |s| - |m|).toNat
  ∑ i ∈ Finset.range Ntheta, (∑ k ∈ Finset.range (spin2Jacobi Lmax m s).1.toNat,
    harmonics Lmax m s (Real.cos theta) k * forwardMatrix Ntheta Lmax m s g (start + k) i) • gdata i

end

/-! ## Operators -/

/-- `SphereBasis.k` (`dedalus/core/basis.py` L3155-3157). -/
noncomputable def k (l : Nat) (s mu : Int) : ℝ := -mu * √(max 0 ((l - mu * s) * (l + mu * s + 1) / 2))

/-- `SphereGradient.symbol` (`dedalus/core/basis.py` L3371-3377), also used by `SphereDivergence.symbol` (L3336-3338). -/
noncomputable def gradientSymbol (sIn sOut : Int) (ell : Nat) (radius : ℝ) : ℝ :=
  let v := k ell sIn (sOut - sIn)
  let v := if |sIn| > ell then 0 else v
  let v := if |sOut| > ell then 0 else v
  v / radius

/-- `SphereLaplacian.symbol` (`dedalus/core/basis.py` L3407-3417). -/
noncomputable def laplacianSymbol (sIn sOut : Int) (ell : Nat) (radius : ℝ) : ℝ :=
  let kp := k ell sIn 1
  let km := k ell sIn (-1)
  let kp1 := k ell (sIn - 1) 1
  let km1 := k ell (sIn + 1) (-1)
  let v := km1 * kp + kp1 * km
  let v := if |sIn| > ell then 0 else v
  let v := if |sOut| > ell then 0 else v
  v / radius ^ 2

/-- `SphereAverage.symbol` (`dedalus/core/basis.py` L5319-5321) for equal spin indices. -/
def averageSymbol (ell : Nat) : ℝ := if ell = 0 then 1 else 0

/-- `ConvertConstantSphere.symbol` (`dedalus/core/basis.py` L3293-3296) and `constant_mode_value` (L2678). -/
noncomputable def constantSymbol (ell : Nat) : ℝ := if ell = 0 then 1 / (1 / √2) else 0

/-- `operator('Cos')` (`dedalus/libraries/dedalus_sphere/sphere.py` L91-95). -/
noncomputable def operatorCos (Lmax : Int) (m s : Int) (i j : Nat) : ℝ :=
  let p := spin2Jacobi Lmax m s
  Jacobi.opZ.entry p.1.toNat p.2.1 p.2.2 i j

/-- `JacobiOperator` `A` and `B` for `p = ±1`. -/
noncomputable def opA (p : Int) : Jacobi.Op := if p = 1 then Jacobi.opAp else Jacobi.opAm
noncomputable def opB (p : Int) : Jacobi.Op := if p = 1 then Jacobi.opBp else Jacobi.opBm

/-- `SphereOperator.__Sin` (`dedalus/libraries/dedalus_sphere/sphere.py` L133-145). -/
noncomputable def operatorSin (Lmax : Int) (m s ds : Int) (i j : Nat) : ℝ :=
  let p := spin2Jacobi Lmax m s
  let d := spin2JacobiStep Lmax m s ds
  (d.2.1 * ds : Int) * ((opA d.2.1).comp (opB d.2.2)).entry p.1.toNat p.2.1 p.2.2 i j

/-- `MulCosine._radial_matrix` (`dedalus/core/operators.py` L3042-3050): the square part, padded in front with `trunc`
empty rows and columns. -/
noncomputable def mulCosine (Lmax : Nat) (m s : Int) (i j : Nat) : ℝ :=
  let trunc := (|s| - |m|).toNat
  if i < trunc ∨ j < trunc then 0 else operatorCos Lmax m s (i - trunc) (j - trunc)

/-! ## Multiplication by axisymmetric coefficients -/

/-- `Operator.__pow__` (`dedalus/libraries/dedalus_sphere/operators.py` L117-122) for `operator('Sin')(ds)`: the codomain of
each factor has one degree more and the spin weight shifted by `ds`. -/
noncomputable def sinPower (Lmax : Int) (m s ds : Int) : Nat → Nat → Nat → ℝ
  | 0 => fun i j => if i = j then 1 else 0
  | k + 1 => fun i j => ∑ l ∈ Finset.range (spin2Jacobi (Lmax + k) m (s + k * ds)).1.toNat,
      operatorSin (Lmax + k) m (s + k * ds) ds i l * sinPower Lmax m s ds k l j

/-- `SphereBasis.sine_multiplication_matrix` (`dedalus/core/basis.py` L3222-3233). -/
noncomputable def sineMatrix (m s order : Int) (size : Nat) (i j : Nat) : ℝ :=
  if order = 0 then (if i = j then 1 else 0)
  else if order < 0 then (-1) ^ (max 0 (-order)) * sinPower ((size : Int) - 1 + max |m| |s|) m s (-1) order.natAbs i j
  else (-1) ^ (max 0 (-order)) * sinPower ((size : Int) - 1 + max |m| |s|) m s 1 order.natAbs i j

variable {K : Type} [RCLike K]

/-- `clenshaw.matrix_clenshaw` with the recursion of the polynomials of the coefficient and the cosine matrix of the operand
(`dedalus/core/basis.py` L3249-3251), for real or complex coefficients. -/
noncomputable def nccClenshaw (M : Nat) (aN bN : ℝ) (m s : Int) (coeffs : List K) (cutoff : ℝ) : Matrix (Fin M) (Fin M) K :=
  let X : Matrix (Fin M) (Fin M) K := fun i j => ((operatorCos ((M : Int) - 1 + max |m| |s|) m s i j : ℝ) : K)
  let J : Nat → Nat → K := fun i j => ((Jacobi.jacobiMatrix M aN bN i j : ℝ) : K)
  Clenshaw.matrixClenshaw (fun x => ‖x‖) coeffs (Clenshaw.jacobiA M J X) (Clenshaw.jacobiB M J)
    (((Jacobi.polynomials 1 aN bN 1 0 : ℝ) : K) • (1 : Matrix (Fin M) (Fin M) K)) cutoff

/-- `Nmat` (`dedalus/core/basis.py` L3246-3248). -/
def nccSize (Lmax : Nat) : Nat := 3 * ((Lmax + 1 + 1) / 2)

/-- `prefactor @ clenshaw.matrix_clenshaw(...)` (`dedalus/core/basis.py` L3262); `coeffs` are the coefficients of the degrees
`0, ..., Lmax` of the NCC and the ones below its spin weight are skipped. -/
noncomputable def nccBlock (Lmax : Nat) (m sArg sNcc : Int) (coeffs : Nat → K) (cutoff : ℝ) (i j : Nat) : K :=
  if h : j < nccSize Lmax then
    ∑ l : Fin (nccSize Lmax), ((sineMatrix m sArg sNcc (nccSize Lmax) i l : ℝ) : K) *
      nccClenshaw (nccSize Lmax) sNcc.natAbs sNcc.natAbs m sArg (((List.range (Lmax + 1)).map coeffs).drop sNcc.natAbs) cutoff l ⟨j, h⟩
  else 0

/-- `matrix[lmin_out:,lmin_arg:] = ...` (`dedalus/core/basis.py` L3258-3262) for `|m| ≤ Lmax`. -/
noncomputable def nccPadded (Lmax : Nat) (m sArg sNcc sOut : Int) (coeffs : Nat → K) (cutoff : ℝ) (p q : Nat) : K :=
  let lo := (max (|sOut| - |m|) 0).toNat
  let la := (max (|sArg| - |m|) 0).toNat
  if lo ≤ p ∧ la ≤ q then nccBlock Lmax m sArg sNcc coeffs cutoff (p - lo) (q - la) else 0

/-- `SphereBasis._last_axis_component_ncc_matrix`, complex dtype (`dedalus/core/basis.py` L3268-3276) for `|m| ≤ Lmax`. -/
noncomputable def nccComplex (Lmax : Nat) (m sArg sNcc sOut : Int) (coeffs : Nat → ℂ) (cutoff : ℝ) (p q : Nat) : ℂ :=
  let N := Lmax + 1 - m.natAbs
  if m < 0 then nccPadded Lmax m sArg sNcc sOut coeffs cutoff (N - 1 - p) (N - 1 - q)
  else nccPadded Lmax m sArg sNcc sOut coeffs cutoff p q

/-- `SphereBasis._last_axis_component_ncc_matrix`, real dtype (`dedalus/core/basis.py` L3253-3266) for `|m| ≤ Lmax`: the row
and the column are a part, 0 for cosine and 1 for minus sine, and a position, and the index is `part * N + position`. -/
noncomputable def nccReal (Nphi Lmax : Nat) (m sArg sNcc sOut : Int) (cosCoeffs msinCoeffs : Nat → ℝ) (cutoff : ℝ) (r c : Nat) : ℝ :=
  let N := Lmax + 1 - m.natAbs
  let entry := fun r c =>
    let C := nccPadded Lmax m sArg sNcc sOut cosCoeffs cutoff (r % N) (c % N)
    let S := nccPadded Lmax m sArg sNcc sOut msinCoeffs cutoff (r % N) (c % N)
    if r / N = 0 then (if c / N = 0 then C else -S) else (if c / N = 0 then S else C)
  let mmax := (Nphi - 1) / 2
  if m ≥ (mmax / 4 : Nat) then entry (2 * N - 1 - r) (2 * N - 1 - c) else entry r c

end Dedalus.Sphere
