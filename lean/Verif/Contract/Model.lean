import Verif.Ball.Model
import Verif.Spin.Model

/-!
# Trace, transposition, rotation by a right angle and components of tensors

Model of `Trace`, `TransposeComponents`, `Skew`, `RadialComponent`, `AngularComponent`, `AzimuthalComponent` and `CartCompBase`
in `dedalus/core/operators.py` and of their versions in `dedalus/core/basis.py`. An array is a function of the list of its indices,
tensor indices first. `none` is an exception. The Kronecker product of a list of matrices acts on the indices one by one.
-/

namespace Dedalus.Contract

open Regularity (range ordering intertwiner)

/-! ## Transposition -/

/-- The place in a list of length `n` of a Python index. -/
def place (n : Nat) (i : Int) : Option Nat :=
  if 0 ≤ i ∧ i < n then some i.toNat else if -(n : Int) ≤ i ∧ i < 0 then some (i + n).toNat else none

/-- One pass of the loops `while i < 0: i += rank` (`dedalus/core/operators.py` L1905-1908) takes a negative index to its remainder. -/
def fromEnd (rank : Nat) (i : Int) : Int := if i < 0 then i % rank else i

/-- `TransposeComponents.__init__` (`dedalus/core/operators.py` L1902-1932): `new_axis_order` for an operand of the given rank in `dim` dimensions. The indices are checked after
counting from the end, but the assignments take the original ones. A scalar operand fails earlier, at its first index. -/
def newAxisOrder (rank dim : Nat) (indices : Int × Int) : Option (List Int) := do
  let i0 := fromEnd rank indices.1
  let i1 := fromEnd rank indices.2
  if rank = 0 then none
  else if rank ≤ max i0 i1 then none
  else if i0 = i1 then none
  else
    let order := (List.range (rank + dim)).map (Int.ofNat ·)
    let p0 ← place (rank + dim) indices.1
    let p1 ← place (rank + dim) indices.2
    some ((order.set p0 indices.2).set p1 indices.1)

/-- The axes of `np.transpose` for an array of `n` axes: `none` is the `ValueError` for axes that do not match. -/
def normalAxes (n : Nat) (axes : List Int) : Option (List Nat) := do
  let l ← axes.mapM (place n)
  if l.length = n ∧ l.Nodup then some l else none

/-- The index of the element of the argument of `np.transpose` that is the element `idx` of the result: axis `k` of the result is axis `axes[k]` of
the argument. -/
def permute {α : Type} (axes : List Nat) (idx : List α) : List α := (List.range idx.length).filterMap fun a => idx[axes.idxOf a]?

/-- `StandardTransposeComponents.operate` (`dedalus/core/operators.py` L1976-1982), also `SphericalTransposeComponents.operate` in grid space
(L2031-2033). -/
def transpose {α : Type} (rank dim : Nat) (indices : Int × Int) (data : List Nat → α) : Option (List Nat → α) := do
  let order ← newAxisOrder rank dim indices
  let axes ← normalAxes (rank + dim) order
  some fun idx => data (permute axes idx)

/-- `_transpose_matrix` (`dedalus/core/operators.py` L1953-1961): row `out` has its entry 1 in the column that is this component. -/
def transposeColumn {α : Type} (rank dim : Nat) (indices : Int × Int) : Option (List α → List α) := do
  let order ← newAxisOrder rank dim indices
  let axes ← normalAxes rank (order.take rank)
  some (permute axes)

/-! ## Operators in regularity components -/

/-- `Q_out[ell].T @ A @ Q_in[ell]` in `SphericalTrace.subproblem_matrix` and `SphericalTransposeComponents.subproblem_matrix`
(`dedalus/core/operators.py` L1808, L2010) at `[out, in]`. -/
noncomputable def recombined (ell rankOut rankIn : Nat) (A : List Int → List Int → ℝ) (out inp : List Int) : ℝ :=
  ((range ordering rankOut).map fun s' => ((range ordering rankIn).map fun s => intertwiner ell out s' * A s' s * intertwiner ell inp s).sum).sum

/-- The same matrix for all radial indices (L1814-1822, L2014-2023) times the coefficients. Blocks for the cosine and minus sine parts and for
different `ell` do not interact. -/
noncomputable def applyRecombined (ell rankOut rankIn : Nat) (A : List Int → List Int → ℝ) (c : List Int → Nat → ℂ) (out : List Int) (n : Nat) : ℂ :=
  ((range ordering rankIn).map fun inp => (recombined ell rankOut rankIn A out inp : ℂ) * c inp n).sum

/-- The place of a spin in the ordering -1, +1, 0. -/
def spinPlace (s : Int) : Nat := if s = -1 then 0 else if s = 1 then 1 else 2

/-- `trace_spin` of `SphericalTrace` (`dedalus/core/operators.py` L1796-1797). -/
def traceSpin (p : Nat) : ℝ := if p = 1 ∨ p = 3 ∨ p = 8 then 1 else 0

/-- `sparse.kron(trace_spin, eye)` of `SphericalTrace` (`dedalus/core/operators.py` L1798) at `[out, in]`. -/
def sphericalTrace (out inp : List Int) : ℝ :=
  match inp with
  | a :: b :: rest => traceSpin (3 * spinPlace a + spinPlace b) * (if out = rest then 1 else 0)
  | _ => 0

/-- `SphericalTransposeComponents.subproblem_matrix` (`dedalus/core/operators.py` L1993-2023), the matrix before the recombinations. -/
def sphericalTranspose (column : List Int → List Int) (out inp : List Int) : ℝ := if inp = column out then 1 else 0

/-- `SphericalTransposeComponents.operate` in coefficient space (`dedalus/core/operators.py` L2035-2045): regularity to spin components, transposition,
and back. -/
noncomputable def transposeRecombined (ell rank : Nat) (column : List Int → List Int) (c : List Int → Nat → ℂ) (out : List Int) (n : Nat) : ℂ :=
  ((range ordering rank).map fun s => (intertwiner ell out s : ℂ) * Ball.spinComponent ell rank (fun reg => c reg n) (column s)).sum

/-! ## Traces -/

/-- `np.einsum('ii...')` of `Trace.operate` (`dedalus/core/operators.py` L1774-1778) for indices of dimension `d`. -/
def traceGrid {α : Type} [AddCommMonoid α] (d : Nat) (data : List Nat → α) (idx : List Nat) : α := ∑ i ∈ Finset.range d, data (i :: i :: idx)

/-- A row vector over a pair of indices of dimension `d`, in the order of the flattened pair, times the data. -/
def pairRow {R : Type} [Semiring R] (d : Nat) (v : Nat → R) (data : List Nat → R) (idx : List Nat) : R :=
  ∑ p ∈ Finset.range (d * d), v p * data (p / d :: p % d :: idx)

/-- `trace` of `CartesianTrace.subproblem_matrix` (`dedalus/core/operators.py` L1854): `np.ravel(np.eye(dim))`. -/
def cartesianTraceRow {R : Type} [Semiring R] (d p : Nat) : R := if p / d = p % d then 1 else 0

/-- `trace_spin` of `PolarTrace.subproblem_matrix` (`dedalus/core/operators.py` L1838-1841). -/
def polarTraceRow {R : Type} [Semiring R] (p : Nat) : R := if p = 1 ∨ p = 2 then 1 else 0

/-- `DirectProductTrace.subproblem_matrix` (`dedalus/core/operators.py` L1868-1871): the sum of the traces of the blocks of the factors, whose
dimensions are listed and whose first index is `start`. -/
def productTrace {α : Type} [AddCommMonoid α] (data : List Nat → α) (idx : List Nat) : Nat → List Nat → α
  | _, [] => 0
  | start, d :: ds => (∑ i ∈ Finset.range d, data ((start + i) :: (start + i) :: idx)) + productTrace data idx (start + d) ds

/-! ## Rotation by a right angle -/

/-- `axindex` (`dedalus/tools/array.py` L39-44) for one index: the data at index `i` of the axis. Negative axes raise. -/
def axindex {α : Type} (axis : Int) (i : Nat) (data : List Nat → α) : Option (List Nat → α) :=
  if axis < 0 then none else some fun idx => data (idx.take axis.toNat ++ i :: idx.drop axis.toNat)

/-- `CartesianSkew.operate` (`dedalus/core/operators.py` L2113-2123) at one value `a` of the index, the other indices fixed. -/
def cartesianSkew {R : Type} [Ring R] (u : Nat → R) (a : Nat) : R := if a = 0 then -u 1 else u 0

/-- `SpinSkew.operate` in grid space (`dedalus/core/operators.py` L2162-2167). -/
def gridSkew {R : Type} [Ring R] (u : Nat → R) (a : Nat) : R := if a = 0 then u 1 else -1 * u 0

/-- `SpinSkew.operate` in coefficient space for complex data (`dedalus/core/operators.py` L2168-2179); `a` is 0, 1 for spin -1, +1. -/
noncomputable def spinSkew (u : Nat → ℂ) (a : Nat) : ℂ := if a = 0 then u 0 * -Complex.I else u 1 * Complex.I

/-- `SpinSkew.operate` in coefficient space for real data (`dedalus/core/operators.py` L2180-2188): index `q` along the azimuthal axis, even for cosine
and odd for minus sine coefficients. -/
def spinSkewReal {R : Type} [Ring R] (u : Nat → Nat → R) (a q : Nat) : R :=
  if a = 1 then (if q % 2 = 0 then -1 * u 1 (q + 1) else u 1 (q - 1))
  else (if q % 2 = 0 then u 0 (q + 1) else -1 * u 0 (q - 1))

/-- A square factor of a Kronecker product, of the given size. -/
structure Factor (R : Type) where
  size : Nat
  entry : Nat → Nat → R

/-- `sparse.identity`. -/
def idFactor {R : Type} [Semiring R] (n : Nat) : Factor R := ⟨n, fun i j => if i = j then 1 else 0⟩

/-- A Kronecker product of matrices times data, at the list of indices. -/
def kronApply {R : Type} [Semiring R] : List (Factor R) → (List Nat → R) → List Nat → R
  | A :: rest, u, a :: as => ∑ j ∈ Finset.range A.size, A.entry a j * kronApply rest (fun t => u (j :: t)) as
  | _, u, idx => u idx

/-- `factors[i] = A`. -/
def setFactor {R : Type} (factors : List (Factor R)) (i : Int) (A : Factor R) : Option (List (Factor R)) :=
  (place factors.length i).map fun p => factors.set p A

/-- `CartesianSkew.subproblem_matrix` (`dedalus/core/operators.py` L2102-2111): the factors, for the dimensions of the tensor indices and the number of
coefficients. -/
def cartesianSkewFactors {R : Type} [Ring R] (dims : List Nat) (coeffs : Nat) (index : Int) : Option (List (Factor R)) :=
  setFactor ((dims ++ [coeffs]).map idFactor) index ⟨2, fun i j => if i = 0 ∧ j = 1 then -1 else if i = 1 ∧ j = 0 then 1 else 0⟩

/-- `SpinSkew.subproblem_matrix` for real data (`dedalus/core/operators.py` L2136-2152) for a field of the given shape, tensor indices first. The size of the identity is
taken from `shape[self.azimuth_axis]`, without the rank. -/
def spinSkewFactors {R : Type} [Ring R] (shape : List Nat) (rank azimuthAxis : Nat) (index : Int) : Option (List (Factor R)) := do
  let f1 ← setFactor (shape.map idFactor) index ⟨2, fun i j => if i = 0 ∧ j = 0 then -1 else if i = 1 ∧ j = 1 then 1 else 0⟩
  let n ← shape[azimuthAxis]?
  let azimuthIndex := rank + azimuthAxis
  setFactor f1 azimuthIndex ⟨2 * (n / 2), fun i j => if i / 2 = j / 2 then (if i % 2 = 0 ∧ j % 2 = 1 then -1 else if i % 2 = 1 ∧ j % 2 = 0 then 1 else 0) else 0⟩

/-! ## Components -/

/-- The signature of `RadialComponent` and `AzimuthalComponent` (`dedalus/core/operators.py` L2245-2248, L2302-2308) for a signature `sig`:
`tensorsig[:index] + tensorsig[index+1:]` with the index as given. -/
def componentSig {α : Type} (sig : List α) (index : Int) : List α :=
  let n : Int := sig.length
  let clip := fun i : Int => if i < 0 then max 0 (i + n) else min i n
  sig.take (clip index).toNat ++ sig.drop (clip (index + 1)).toNat

/-- `Component.__init__` (`dedalus/core/operators.py` L2201-2205): the stored index. An index below `-rank` stays negative. -/
def componentIndex (rank : Nat) (index : Int) : Option Int :=
  let i := if index < 0 then index + rank else index
  if (rank : Int) ≤ i then none else some i

/-- `operate` of `S2RadialComponent`, `PolarAzimuthalComponent`, `PolarRadialComponent` and `PolarAngularComponent` (`dedalus/core/basis.py` L5923-5930, L5996-6003, L6030-6037,
L6070-6077), with `i = 2, 0, 1, 0`. -/
def component {α : Type} (rank : Nat) (index : Int) (i : Nat) (data : List Nat → α) : Option (List Nat → α) := do
  axindex (← componentIndex rank index) i data

/-- `subproblem_matrix` of the same operators (`dedalus/core/basis.py` L5896-5914, L5976-5991, L6010-6025) at `[out, in]`, for a stored index that is not negative. -/
def componentEntry (index i : Nat) (out inp : List Nat) : Bool := inp[index]? = some i ∧ inp.eraseIdx index = out

/-- The shape of `data[(None,) * index + (i,)]` and `data[(None,) * index + (slice,)]` (`dedalus/core/operators.py` L3357, L3380-3381): new axes of size 1,
and the index or slice acts on the first axis of the data. `width` is `none` for an index. -/
def newAxisShape (shape : List Nat) (index : Nat) (width : Option Nat) : List Nat :=
  List.replicate index 1 ++ (match width with | none => [] | some w => [w]) ++ shape.tail

/-- `out.data[:] = source`: leading axes of size 1 of the source are dropped, then every axis has the size of the output axis or size 1.
The value is the index of the source without the dropped axes. -/
def assignIndex (outShape srcShape : List Nat) (idx : List Nat) : Option (List Nat) :=
  let extra := srcShape.length - outShape.length
  let src := srcShape.drop extra
  if (srcShape.take extra).all (· = 1) ∧ src.length = outShape.length ∧ (List.zipWith (fun s o => decide (s = o ∨ s = 1)) src outShape).all id
  then some (List.zipWith (fun s i => if s = 1 then 0 else i) src idx) else none

/-- `CartesianComponent.operate` (`dedalus/core/operators.py` L3351-3358) for data of the given shape: the element `idx` of the output. The assignment drops just the new
axes. -/
def cartesianComponent {α : Type} (shape : List Nat) (index sub : Nat) (data : List Nat → α) (idx : List Nat) : Option α :=
  (assignIndex (shape.eraseIdx index) (newAxisShape shape index none) idx).map fun t => data (sub :: t)

/-- `DirectProductComponent.operate` (`dedalus/core/operators.py` L3379-3381, L3403-3409): the slice from `start` of the given width. -/
def productComponent {α : Type} (shape : List Nat) (index start width : Nat) (data : List Nat → α) (idx : List Nat) : Option α :=
  (assignIndex (shape.set index width) (newAxisShape shape index (some width)) idx).bind fun t =>
    match t with
    | [] => none
    | a :: rest => some (data ((start + a) :: rest))

/-- `subproblem_matrix` of both (`dedalus/core/operators.py` L3340-3349, L3393-3401) times the data: the factor of the index selects `sub`, `sub + 1`, ... -/
def selectionMatrix {R : Type} [Semiring R] (shape : List Nat) (index sub : Nat) (data : List Nat → R) (idx : List Nat) : Option R :=
  (shape[index]?).map fun d =>
    kronApply ((shape.map idFactor).set index ⟨d, fun i j => if j = sub + i then 1 else 0⟩) data idx

end Dedalus.Contract
