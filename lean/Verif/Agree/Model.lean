import Verif.Maps.Model
import Verif.Mats.Kron

/-! Operators of curvilinear bases in their two forms: applied to field data (`operate`) and as a matrix of a
subproblem (`subproblem_matrix`). The field lives on the curvilinear basis only; there are no further axes. Tensor
components are numbered in C order. -/

namespace Dedalus.Agree
open Mats Maps

variable {K : Type} [Field K] [DecidableEq K]

/-- Local coefficient data: component, row (azimuthal axis), column (colatitude axis), radial index. Disk and annulus
data have one column. -/
abbrev Data (K : Type) := Nat → Nat → Nat → Nat → K

/-- What a `SphericalEllOperator` or `PolarMOperator` subclass supplies. The key is the degree `ell` (sphere based) or the order
`m` (polar). `outs` is `regindex_out`/`spinindex_out`, `allowed` and `allowedOut` are `regularity_allowed` (always true in disks
and annuli), `mat` is `radial_matrix`, `start` and `size` are `n_slice` (basis.py L1883-1892, L3669-3679). -/
structure RadialOp (K : Type) where
  nin : Nat
  nout : Nat
  outs : Nat → List Nat
  allowed : Int → Nat → Bool
  allowedOut : Int → Nat → Bool
  mat : Nat → Nat → Int → Mat K
  start : Int → Nat
  size : Int → Nat

/-- `vec_out += apply_matrix(A, vec_in)` for one entry of the maps and one pair of components. operators.py L3158-3170,
L2945-2952. -/
def addEntry (op : RadialOp K) (x : Data K) (cin cout : Nat) (out : Data K) (e : Entry) : Data K :=
  if op.allowed e.ell cin && op.allowedOut e.ell cout then
    fun c i j n =>
      if c = cout ∧ e.covers i j = true ∧ op.start e.ell ≤ n ∧ n < op.start e.ell + op.size e.ell then
        out c i j n + ∑ k ∈ Finset.range (op.size e.ell),
          (op.mat cin cout e.ell).e (n - op.start e.ell) k * x cin i j (op.start e.ell + k)
      else out c i j n
  else out

/-- `SphericalEllOperator.operate` (operators.py L3135-3170) and `PolarMOperator.operate` (operators.py L2927-2952, with the
entries of `m_maps`). -/
def operate (op : RadialOp K) (maps : List Entry) (x : Data K) : Data K :=
  (List.range op.nin).foldl (fun out cin =>
    (op.outs cin).foldl (fun out cout => maps.foldl (addEntry op x cin cout) out) out) fun _ _ _ _ => 0

/-- `sparse.bmat` of a full array of blocks of equal shape; `none` if the shapes differ (it raises). -/
def bmat (nout nin : Nat) (blk : Nat → Nat → Mat K) : Option (Mat K) :=
  let R := (blk 0 0).rows
  let C := (blk 0 0).cols
  if (List.range nout).all fun r => (List.range nin).all fun c => (blk r c).rows == R && (blk r c).cols == C then
    some ⟨nout * R, nin * C, fun i j => (blk (i / R) (j / C)).e (i % R) (j % C)⟩
  else none

/-- `reduce(sparse.kron, factors, 1)`. operators.py L3199, L2983. -/
def kronAll (factors : List (Mat K)) : Mat K := factors.foldl Mat.kron (Mat.ident 1)

/-- `_wrap_radial_matrix` without zeros: the radial matrix or None. operators.py L3218-3221, L3230-3231. -/
def wrapped (op : RadialOp K) (cin cout : Nat) (ell : Int) : Option (Mat K) :=
  if (op.outs cin).contains cout && op.allowed ell cin && op.allowedOut ell cout then some (op.mat cin cout ell) else none

/-- `SphericalEllOperator.subproblem_matrix` with separable degree (operators.py L3172-3205): `b` rows and one column, and
`PolarMOperator.subproblem_matrix` (operators.py L2954-2989; the radial matrix is not reversed in disks and annuli,
basis.py L1935-1940). -/
def separableMatrix (op : RadialOp K) (b : Nat) (ell : Int) : Option (Mat K) :=
  bmat op.nout op.nin fun cout cin =>
    match wrapped op cin cout ell with
    | none => Mat.zeros (b * 1 * op.size ell) (b * 1 * op.size ell)
    | some m => kronAll [Mat.ident b, Mat.ident 1, m]

/-- `sparse_block_diag`. tools/array.py L300-322. -/
def blockDiag : List (Mat K) → Mat K
  | [] => ⟨0, 0, fun _ _ => 0⟩
  | m :: ms =>
    let r := blockDiag ms
    ⟨m.rows + r.rows, m.cols + r.cols, fun i j =>
      if i < m.rows then (if j < m.cols then m.e i j else 0)
      else if j < m.cols then 0 else r.e (i - m.rows) (j - m.cols)⟩

/-- `_coupled_ell_matrices` (operators.py L3207-3215): the degrees from `|m|` to `Lmax`, reversed if the columns of the order
`m` are stored in reverse, and `_wrap_radial_matrix` with zeros (operators.py L3217-3231). -/
def coupledMatrices (op : RadialOp K) (ells : List Int) (cin cout : Nat) : Mat K :=
  blockDiag (ells.map fun ell =>
    match wrapped op cin cout ell with
    | none => Mat.zeros (op.size ell) (op.size ell)
    | some m => m)

/-- The list of degrees of `_coupled_ell_matrices`. operators.py L3208-3212. -/
def ellList (Lmax : Nat) (m : Int) (reversed : Bool) : List Int :=
  let l := (List.range (Lmax + 1 - m.natAbs)).map fun r : Nat => (m.natAbs : Int) + r
  if reversed then l.reverse else l

/-- `SphereBasis.ell_reversed` (basis.py L2973-2980, from the slices of `m_maps`, L2963-2966): the columns of order `m` start at
column 0, and `m` is not 0. -/
def ellReversed (G : Nat → Nat → Int × Int) (width row : Nat) (m : Int) : Bool :=
  decide (((List.range width).filter fun j => (G row j).1 = m).head? = some 0 ∧ m ≠ 0)

/-- `SphericalEllOperator.subproblem_matrix` with coupled degree (operators.py L3172-3205): the colatitude factor is replaced
by the identity of size 1 and the radial factor by the block diagonal matrix. -/
def coupledMatrix (op : RadialOp K) (b : Nat) (ells : List Int) : Option (Mat K) :=
  bmat op.nout op.nin fun cout cin => kronAll [Mat.ident b, Mat.ident 1, coupledMatrices op ells cin cout]

/-- `SphericalCurl` with real dtype: the radial matrices are complex; real and imaginary parts. -/
structure ComplexOp (K : Type) where
  re : RadialOp K
  im : Nat → Nat → Int → Mat K

/-- One entry of `SphericalCurl.operate` with real dtype (operators.py L3964-3975): rows of the slice with even offset are the
cosine parts, the others the minus sine parts. -/
def addEntryReal (op : ComplexOp K) (x : Data K) (cin cout : Nat) (out : Data K) (e : Entry) : Data K :=
  let o := op.re
  if o.allowed e.ell cin && o.allowedOut e.ell cout then
    fun c i j n =>
      if c = cout ∧ e.covers i j = true ∧ o.start e.ell ≤ n ∧ n < o.start e.ell + o.size e.ell then
        let re := fun i => ∑ k ∈ Finset.range (o.size e.ell), (o.mat cin cout e.ell).e (n - o.start e.ell) k * x cin i j (o.start e.ell + k)
        let im := fun i => ∑ k ∈ Finset.range (o.size e.ell), (op.im cin cout e.ell).e (n - o.start e.ell) k * x cin i j (o.start e.ell + k)
        out c i j n + (if (i - e.rows.1) % 2 = 0 then re i - im (i + 1) else re i + im (i - 1))
      else out c i j n
  else out

/-- `SphericalCurl.operate` with real dtype. operators.py L3944-3975. -/
def operateReal (op : ComplexOp K) (maps : List Entry) (x : Data K) : Data K :=
  (List.range op.re.nin).foldl (fun out cin =>
    (op.re.outs cin).foldl (fun out cout => maps.foldl (addEntryReal op x cin cout) out) out) fun _ _ _ _ => 0

/-- `np.array([[0, -1], [1, 0]])`. operators.py L3930. -/
def mult1j : Mat K := ⟨2, 2, fun i j => if i = 0 ∧ j = 1 then -1 else if i = 1 ∧ j = 0 then 1 else 0⟩

/-- `SphericalCurl.subproblem_matrix` with real dtype (operators.py L3903-3942): `none` as degree is a coupled degree, where
`regularity_allowed` compares None with the rank and raises (libraries/dedalus_sphere/spin_operators.py L320), unless
the first test of the condition already fails for every pair. `b` is the number of rows. -/
def curlRealMatrix (op : ComplexOp K) (b : Nat) (ell : Option Int) : Option (Mat K) :=
  match ell with
  | none =>
    if (List.range op.re.nout).any fun cout => (List.range op.re.nin).any fun cin => (op.re.outs cin).contains cout then none
    else some (Mat.zeros 0 0)
  | some ell =>
    let block := fun cout cin =>
      match wrapped op.re cin cout ell with
      | none => some (Mat.zeros (b * 1 * op.re.size ell) (b * 1 * op.re.size ell))
      | some m => (kronAll [Mat.ident b, Mat.ident 1, m]).add
          (kronAll [Mat.kron mult1j (Mat.ident (b / 2)), Mat.ident 1, op.im cin cout ell])
    if (List.range op.re.nout).all fun cout => (List.range op.re.nin).all fun cin => (block cout cin).isSome then
      bmat op.re.nout op.re.nin fun cout cin => (block cout cin).getD (Mat.zeros 0 0)
    else none

/-- `SeparableSphereOperator.operate` for equal shapes of input and output data, no complexification (operators.py
L2799-2866). `symbol cin cout ell` is the symbol; `ell i j` the local group array (L2735-2750). -/
def operateSymbols (nin : Nat) (outs : Nat → List Nat) (symbol : Nat → Nat → Int → K) (ell : Nat → Nat → Int) (x : Data K) :
    Data K :=
  (List.range nin).foldl (fun out cin =>
    (outs cin).foldl (fun out cout => fun c i j n =>
      if c = cout then out c i j n + symbol cin cout (ell i j) * x cin i j n else out c i j n) out) fun _ _ _ _ => 0

/-- Diagonal matrix. -/
def diag (d : List K) : Mat K := ⟨d.length, d.length, fun i j => if i = j then (d[i]?).getD 0 else 0⟩

/-- `SeparableSphereOperator.subproblem_matrix` for equal shapes (operators.py L2757-2797): the symbols of the slots of the
group's slices, in C order; the group has one slice, of rows `r` to `r + b` and column `col`. -/
def symbolMatrix (nin nout : Nat) (outs : Nat → List Nat) (symbol : Nat → Nat → Int → K) (ell : Nat → Nat → Int) (r b col : Nat) :
    Option (Mat K) :=
  bmat nout nin fun cout cin =>
    if (outs cin).contains cout then diag ((List.range b).map fun i => symbol cin cout (ell (r + i) col))
    else Mat.zeros (b * 1) (b * 1)

end Dedalus.Agree
