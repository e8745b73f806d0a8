import Mathlib.Algebra.BigOperators.Group.Finset.Basic
import Verif.Csr.Model

/-!
# Applying a matrix along an axis of an array

Model of `apply_matrix`, `apply_dense`, `apply_sparse_dot`, `apply_sparse`, `move_single_axis` and `csr_matvecs`
(/repo/dedalus/tools/array.py) and of the choices made in `apply_csr` (/repo/dedalus/tools/linalg.pyx), on arrays that are
views of one memory. Addresses and strides count entries; strides are not negative; all arrays have the same dtype.
The row loops of `apply_csr` are the ones of `Verif.Csr.Model`. Products whose input and output overlap, and products of
arrays whose shapes do not match when the shapes are not checked, read or write memory in an order or place that the
language does not define: they are the error `undefined` here.
-/

namespace Dedalus.Apply

/-- Exceptions, and undefined behaviour of compiled code. -/
inductive Exc
  | value
  | index
  | zeroDivision
  | undefined
  deriving DecidableEq

/-- The memory that arrays are views of. -/
abbrev Mem (K : Type) := Nat → K

/-- A numpy array: the address of its first entry, its shape and its strides. -/
structure View where
  base : Nat
  shape : List Nat
  strides : List Nat
  deriving DecidableEq

/-- Number of entries between the first entry and the entry at an index. -/
def dot : List Nat → List Nat → Nat
  | s :: ss, i :: is => s * i + dot ss is
  | _, _ => 0

/-- The address of the entry at an index. -/
def View.addr (v : View) (idx : List Nat) : Nat := v.base + dot v.strides idx

/-- `math.prod` of a shape. -/
def prod : List Nat → Nat
  | [] => 1
  | n :: s => n * prod s

/-- Number of an index in C order. -/
def ravel : List Nat → List Nat → Nat
  | _ :: s, i :: is => i * prod s + ravel s is
  | _, _ => 0

/-- The index with a number in C order. -/
def unravel : List Nat → Nat → List Nat
  | [], _ => []
  | _ :: s, r => r / prod s :: unravel s (r % prod s)

/-- All indices of a shape, in C order. -/
def indices : List Nat → List (List Nat)
  | [] => [[]]
  | n :: s => (List.range n).flatMap fun i => (indices s).map (i :: ·)

/-- An array that is only read: its shape and its entries. -/
structure Arr (K : Type) where
  shape : List Nat
  get : List Nat → K

variable {K : Type}

/-- The array that a view shows. -/
def View.read (v : View) (mem : Mem K) : Arr K := ⟨v.shape, fun idx => mem (v.addr idx)⟩

/-- Change the entries of a view at some indices one after the other. -/
def update (v : View) (f : List Nat → K → K) : List (List Nat) → Mem K → Mem K
  | [], mem => mem
  | idx :: rest, mem => update v f rest (fun p => if p = v.addr idx then f idx (mem p) else mem p)

/-- The axes in `move_single_axis`: all but `source` in order, then `source` inserted. array.py L99-100. -/
def axesOrder (ndim source destination : Nat) : List Nat :=
  ((List.range ndim).filter (fun n => n != source)).insertIdx destination source

/-- `a.transpose(order)`: axis `n` of the result is axis `order[n]` of `a`. array.py L101. -/
def transpose (a : Arr K) (order : List Nat) : Arr K :=
  ⟨order.filterMap (a.shape[·]?),
    fun idx => a.get ((List.range a.shape.length).filterMap fun p => idx[order.idxOf p]?)⟩

/-- `move_single_axis`. array.py L97-101. -/
def moveAxis (a : Arr K) (source destination : Nat) : Arr K :=
  transpose a (axesOrder a.shape.length source destination)

/-- `a.reshape(shape)` for reading. -/
def reshape (a : Arr K) (shape : List Nat) : Except Exc (Arr K) :=
  if prod shape = prod a.shape then .ok ⟨shape, fun idx => a.get (unravel a.shape (ravel shape idx))⟩
  else .error .value

/-- `a.reshape((a.shape[0], -1))`: numpy cannot tell the second size when the first is zero, and raises. array.py L115,
L154. -/
def flatten (a : Arr K) : Except Exc (Arr K) :=
  match a.shape with
  | [] => .error .index
  | n :: _ => if n = 0 then .error .value else reshape a [n, prod a.shape / n]

/-- A dense matrix. -/
structure Mat (K : Type) where
  rows : Nat
  cols : Nat
  get : Nat → Nat → K

/-- `np.matmul(matrix, array)` (array.py L117) and `matrix.dot(array)` (array.py L156) for arrays of one or two dimensions. -/
def matmul [Field K] (M : Mat K) (a : Arr K) : Except Exc (Arr K) :=
  match a.shape with
  | [n] =>
    if M.cols = n then .ok ⟨[M.rows], fun idx =>
      match idx with
      | [i] => ∑ j ∈ Finset.range M.cols, M.get i j * a.get [j]
      | _ => 0⟩
    else .error .value
  | [n, m] =>
    if M.cols = n then .ok ⟨[M.rows, m], fun idx =>
      match idx with
      | [i, k] => ∑ j ∈ Finset.range M.cols, M.get i j * a.get [j, k]
      | _ => 0⟩
    else .error .value
  | _ => .error .value

/-- The temporary array of `apply_dense` (array.py L104-123) and `apply_sparse_dot` (array.py L143-162), which are the same
code but for the product of the two-dimensional arrays. -/
def denseTemp [Field K] (M : Mat K) (a : Arr K) (axis : Int) : Except Exc (Arr K) :=
  let dim := a.shape.length
  if dim = 0 then .error .zeroDivision
  else
    let ax := (axis % (dim : Int)).toNat
    let a1 := if ax ≠ 0 then moveAxis a ax 0 else a
    (if 2 < dim then flatten a1 else .ok a1).bind fun a2 =>
    (matmul M a2).bind fun t =>
    (if 2 < dim then reshape t (t.shape.take 1 ++ a1.shape.drop 1) else .ok t).bind fun t1 =>
    .ok (if ax ≠ 0 then moveAxis t1 0 ax else t1)

/-- numpy's rule for `out[:] = temp` with arrays of the same dimension: an axis of `temp` has the size of the axis of `out`
or size one. -/
def broadcasts : List Nat → List Nat → Bool
  | [], [] => true
  | t :: ts, o :: os => (t == o || t == 1) && broadcasts ts os
  | _, _ => false

/-- The index of `temp` that is copied to an index of `out`. -/
def source : List Nat → List Nat → List Nat
  | t :: ts, i :: is => (if t = 1 then 0 else i) :: source ts is
  | _, _ => []

/-- `out[:] = temp`. array.py L128, L168. -/
def assign (out : View) (t : Arr K) (mem : Mem K) : Except Exc (Mem K) :=
  if broadcasts t.shape out.shape then .ok (update out (fun idx _ => t.get (source t.shape idx)) (indices out.shape) mem)
  else .error .value

/-- `apply_dense` and `apply_sparse_dot` with an output array. array.py L104-129, L143-168. -/
def applyDense [Field K] (M : Mat K) (a : View) (axis : Int) (out : View) (mem : Mem K) : Except Exc (Mem K) :=
  (denseTemp M (a.read mem) axis).bind fun t => assign out t mem

/-- A scipy sparse matrix: whether it is a `csr_matrix`, its shape, and its arrays. -/
structure Sparse (K : Type) where
  csr : Bool
  rows : Nat
  cols : Nat
  A : Csr.Csr K

/-- The strides of a new array of a shape. -/
def cStrides : List Nat → List Nat
  | [] => []
  | _ :: s => prod s :: cStrides s

/-- Whether every axis of more than one entry has the stride of a new array. -/
def contigAxes : List Nat → List Nat → Bool
  | [], [] => true
  | n :: s, t :: ts => (n == 1 || t == prod s) && contigAxes s ts
  | _, _ => false

/-- numpy's and cython's test for C-contiguous arrays, as required by `dtype [::1] y`, `dtype [:,::1] y` and
`dtype [:,:,::1] y`. linalg.pyx L269, L289, L314, L339. -/
def View.contig (v : View) : Bool := v.shape.contains 0 || contigAxes v.shape v.strides

/-- Whether adjacent axes can be seen as one axis. -/
def mergeable : List (Nat × Nat) → Bool
  | (_, t) :: (m, u) :: rest => t == m * u && mergeable ((m, u) :: rest)
  | _ => true

/-- Whether `reshape` to three axes with the given one in the middle is possible without a copy: the axes before it, and
the ones after it, can be seen as one axis each (axes of one entry do not matter). -/
def View.viewable (v : View) (axis : Nat) : Bool :=
  let axes := v.shape.zip v.strides
  mergeable ((axes.take axis).filter fun p => p.1 != 1) && mergeable ((axes.drop (axis + 1)).filter fun p => p.1 != 1)

/-- Whether two views share an entry. -/
def overlap (a b : View) : Bool :=
  (indices a.shape).any fun i => (indices b.shape).any fun j => a.addr i == b.addr j

/-- The product with the axis in the middle of three (or fewer) axes, written to a contiguous output. linalg.pyx L206-258. -/
def runCsr [Field K] (A : Csr.Csr K) (a out : View) (ax N2 : Nat) (order : List Nat) (mem : Mem K) : Mem K :=
  let N1 := prod (a.shape.take ax)
  let N3 := prod (a.shape.drop (ax + 1))
  let x := fun h i k => mem (a.addr (unravel (a.shape.take ax) h ++ i :: unravel (a.shape.drop (ax + 1)) k))
  let y := Csr.applyCsr A N1 N2 N3 order x (fun h i k => mem (out.base + ((h * N2 + i) * N3 + k)))
  fun p =>
    if out.base ≤ p ∧ p < out.base + N1 * N2 * N3 then
      y ((p - out.base) / N3 / N2) ((p - out.base) / N3 % N2) ((p - out.base) % N3)
    else mem p

/-- `apply_csr`. linalg.pyx L189-258. An output that is not contiguous is refused when it (or its reshaped view) is passed to
a row loop; with three or more axes `out.reshape` may be a copy, which is filled and dropped. -/
def applyCsr [Field K] (S : Sparse K) (a out : View) (axis : Int) (order : List Nat) (mem : Mem K) : Except Exc (Mem K) :=
  let ndim := a.shape.length
  if ndim = 0 then .error .undefined
  else if axis < 0 ∨ (ndim : Int) ≤ axis then
    -- No branch of L205-218 is taken; with three axes or more `array.shape[axis]` is outside of the shape
    if ndim ≤ 2 then .ok mem else .error .undefined
  else
    let ax := axis.toNat
    if out.shape ≠ a.shape.set ax S.rows ∨ a.shape[ax]? ≠ some S.cols ∨ overlap a out then .error .undefined
    else if out.contig then .ok (runCsr S.A a out ax S.rows order mem)
    else if 2 < ndim ∧ out.viewable ax = false then .ok mem
    else .error .value

/-- `_sparsetools.csr_matvec` and `csr_matvecs` add the product to the output, by columns or all at once. array.py L276-280. -/
def matvecs [Field K] (split : Bool) (S : Sparse K) (a out : View) (kx : Nat) (mem : Mem K) : Mem K :=
  let add := fun idx y =>
    match idx with
    | [i, k] => (Csr.row S.A i).foldl (fun s jj => s + S.A.Ax jj * mem (a.addr [S.A.Aj jj, k])) y
    | _ => y
  let order := if split then (List.range kx).flatMap fun k => (List.range S.rows).map fun i => [i, k]
    else indices [S.rows, kx]
  update out add order mem

/-- `csr_matvecs`. array.py L256-281. -/
def csrMatvecs [Field K] (split : Bool) (S : Sparse K) (a out : View) (mem : Mem K) : Except Exc (Mem K) :=
  match a.shape, out.shape with
  | [n, kx], [m, ko] =>
    if S.rows ≠ m ∨ S.cols ≠ n then .error .value
    else if kx ≠ ko then .error .value
    else .ok (matvecs split S a out kx mem)
  | _, _ => .error .value

/-- A position in a Python list, from the front or from the back. -/
def pyIndex (n : Nat) (i : Int) : Option Nat :=
  if 0 ≤ i then (if i < n then some i.toNat else none)
  else if -(n : Int) ≤ i then some (i + n).toNat else none

/-- The settings `OLD_CSR_MATVECS` and `SPLIT_CSR_MATVECS`. array.py L13-14. -/
structure Config where
  old : Bool
  split : Bool

/-- The output array: the one given, which must be another object than `array`, or a new one at `fresh`. array.py L180-185. -/
def output (S : Sparse K) (a : View) (axis : Int) (out : Option View) (isArray : Bool) (fresh : Nat) : Except Exc View :=
  match out with
  | none =>
    match pyIndex a.shape.length axis with
    | none => .error .index
    | some ax => .ok ⟨fresh, a.shape.set ax S.rows, cStrides (a.shape.set ax S.rows)⟩
  | some v => if isArray then .error .value else .ok v

/-- `check_shapes`. array.py L187-191. -/
def shapesOk (S : Sparse K) (a out : View) (axis : Int) : Bool :=
  decide (0 ≤ axis) && decide (axis < (a.shape.length : Int)) && decide (a.shape[axis.toNat]? = some S.cols) &&
    decide (out.shape[axis.toNat]? = some S.rows)

/-- `apply_sparse`: the memory after the call, and the returned array. array.py L171-203. -/
def applySparse [Field K] (cfg : Config) (S : Sparse K) (a : View) (axis : Int) (out : Option View) (isArray check : Bool)
    (order : List Nat) (fresh : Nat) (mem : Mem K) : Except Exc (Mem K × View) :=
  if S.csr = false then .error .value
  else (output S a axis out isArray fresh).bind fun v =>
    if check = true ∧ shapesOk S a v axis = false then .error .value
    else if cfg.old = true ∧ a.shape.length = 2 ∧ axis = 0 then
      if overlap a v then .error .undefined
      else (csrMatvecs cfg.split S a v (update v (fun _ _ => 0) (indices v.shape) mem)).map fun m => (m, v)
    else (applyCsr S a v axis order mem).map fun m => (m, v)

/-- The matrices that `apply_matrix` takes. -/
inductive Matrix (K : Type)
  | sparse (S : Sparse K)
  | dense (M : Mat K)

/-- `apply_matrix` with an output array. array.py L77-82. -/
def applyMatrix [Field K] (cfg : Config) (A : Matrix K) (a : View) (axis : Int) (out : View) (order : List Nat)
    (mem : Mem K) : Except Exc (Mem K) :=
  match A with
  | .sparse S => (applySparse cfg S a axis (some out) false false order 0 mem).map Prod.fst
  | .dense M => applyDense M a axis out mem

/-- `cdata[:, m_ind, ell_ind, Nmin:, :]` for coefficients of shape `(n0, n1, n2, N3c, n4)` with one degree selected: the shape.
/repo/dedalus/core/transforms.py L1497-1499. -/
def ballSlice (n0 n1 n2 N3c n4 ell : Nat) : List Nat := [n0, n1, n2, N3c - ell / 2, n4]

/-- `apply_matrix(ell_matrices[ell], crl, axis=3, out=grl)`: the backward radial transform in a ball for one degree, before the
copy to `grl`; the matrix has `max(N3c - Nmin, 0)` columns. transforms.py L1491-1500, L1556-1562. -/
def ballBackward [Field K] (n0 n1 n2 N3c N3g n4 ell : Nat) (W : Nat → Nat → K) (crl : List Nat → K) : Except Exc (Arr K) :=
  denseTemp ⟨N3g, N3c - ell / 2, W⟩ ⟨ballSlice n0 n1 n2 N3c n4 ell, crl⟩ 3

end Dedalus.Apply
