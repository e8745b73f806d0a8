import Mathlib.Analysis.SpecialFunctions.Sqrt
import Mathlib.Analysis.Complex.Basic
import Mathlib.Algebra.BigOperators.Group.Finset.Basic

/-!
# Coordinate systems and spin components

Model of `dedalus/core/coords.py`, of `SpinRecombinationBasis` in `dedalus/core/basis.py` and of
`dedalus/libraries/spin_recombination.pyx`. Floating point numbers are complex or real numbers. `none` is an exception.
-/

namespace Dedalus.Spin

/-! ## Coordinates -/

/-- A coordinate (`dedalus/core/coords.py` L66-96, L192-193): whether it is an `AzimuthalCoordinate`, its name and its
identity. -/
structure Coord where
  azimuthal : Bool
  name : String
  ident : Nat
  deriving DecidableEq, Repr

/-- `Coordinate.__eq__` (`dedalus/core/coords.py` L79-83). -/
def Coord.eq (c d : Coord) : Bool := if c.azimuthal = d.azimuthal then (if c.name = d.name then true else false) else false

/-- The loop of `CoordinateSystem.__eq__` (`dedalus/core/coords.py` L24-28): both returns are inside the loop. -/
def eqLoop : List Coord → List Coord → Bool
  | c :: _, d :: _ => if !c.eq d then false else true
  | _, _ => false

/-- The types of coordinate systems. -/
inductive Kind where
  | cartesian | s2 | polar | spherical | product
  deriving DecidableEq, Repr

/-- `CoordinateSystem.__eq__` (`dedalus/core/coords.py` L21-29). -/
def csEq (k1 : Kind) (c1 : List Coord) (k2 : Kind) (c2 : List Coord) : Bool :=
  if k1 = k2 then (if c1.length = c2.length then eqLoop c1 c2 else false) else false

/-- The elements of a Python set built from coordinates: `__hash__` is the identity (`dedalus/core/coords.py` L85-86), and
elements with different hashes are kept without being compared. -/
def pySet : List Coord → List Coord
  | [] => []
  | c :: cs => if (pySet cs).any (fun d => d.ident = c.ident) then pySet cs else c :: pySet cs

/-- The check of `DirectProduct.__init__` (`dedalus/core/coords.py` L107-108): true if it raises. -/
def productRejected (coords : List Coord) : Bool := (pySet coords).length < coords.length

/-- `CartesianCoordinates.__init__` (`dedalus/core/coords.py` L164-165): true if it raises. -/
def cartesianRejected (names : List String) : Bool := names.dedup.length < names.length

/-! ## Matrices -/

/-- A complex matrix with its shape. -/
structure Mat where
  rows : Nat
  cols : Nat
  entry : Nat → Nat → ℂ

/-- `np.identity`. -/
def eye (n : Nat) : Mat := ⟨n, n, fun i j => if i = j then 1 else 0⟩

/-- `A.T.conj()`. -/
noncomputable def Mat.dag (A : Mat) : Mat := ⟨A.cols, A.rows, fun i j => (starRingEnd ℂ) (A.entry j i)⟩

/-- `np.kron`. -/
noncomputable def kron2 (A B : Mat) : Mat :=
  ⟨A.rows * B.rows, A.cols * B.cols, fun i j => A.entry (i / B.rows) (j / B.cols) * B.entry (i % B.rows) (j % B.cols)⟩

/-- `kron` (`dedalus/tools/array.py` L325-332). -/
noncomputable def kron : List Mat → Mat
  | [] => eye 1
  | f :: fs => fs.foldl kron2 f

/-- `nkron` (`dedalus/tools/array.py` L335-336). -/
noncomputable def nkron (A : Mat) (n : Nat) : Mat := kron (List.replicate n A)

/-- `sparse_block_diag` (`dedalus/tools/array.py` L300-322) for one more block in front. -/
def blockCons (A B : Mat) : Mat :=
  ⟨A.rows + B.rows, A.cols + B.cols, fun i j =>
    if i < A.rows ∧ j < A.cols then A.entry i j
    else if A.rows ≤ i ∧ A.cols ≤ j then B.entry (i - A.rows) (j - A.cols) else 0⟩

/-- `sparse_block_diag` (`dedalus/tools/array.py` L300-322). -/
def blockDiag : List Mat → Mat
  | [] => ⟨0, 0, fun _ _ => 0⟩
  | A :: rest => blockCons A (blockDiag rest)

/-! ## Intertwiners -/

/-- `S2Coordinates._U_forward` and `PolarCoordinates._U_forward` for order 1 (`dedalus/core/coords.py` L218-227, L272-281): the
rows are the spins -1, +1, the columns the azimuthal and the other component. -/
noncomputable def uForward : Mat := ⟨2, 2, fun i j =>
  if i = 0 then (if j = 0 then -Complex.I / (√2 : ℝ) else 1 / (√2 : ℝ)) else (if j = 0 then Complex.I / (√2 : ℝ) else 1 / (√2 : ℝ))⟩

/-- `SphericalCoordinates._U_forward` for order 1 (`dedalus/core/coords.py` L337-346): rows -1, +1, 0. -/
noncomputable def uSpherical : Mat := ⟨3, 3, fun i j =>
  if i = 0 then (if j = 0 then -Complex.I / (√2 : ℝ) else if j = 1 then 1 / (√2 : ℝ) else 0)
  else if i = 1 then (if j = 0 then Complex.I / (√2 : ℝ) else if j = 1 then 1 / (√2 : ℝ) else 0)
  else (if j = 2 then 1 else 0)⟩

/-- Coordinate systems other than products. -/
inductive Cs where
  | coordinate (c : Coord)
  | cartesian (cs : List Coord)
  | s2 (azimuth colatitude : Coord)
  | polar (azimuth radius : Coord)
  | spherical (azimuth colatitude radius : Coord)
  deriving DecidableEq

/-- `coords`. -/
def Cs.coords : Cs → List Coord
  | .coordinate c => [c]
  | .cartesian cs => cs
  | .s2 a c => [a, c]
  | .polar a r => [a, r]
  | .spherical a c r => [a, c, r]

/-- `dim`. -/
def Cs.dim : Cs → Nat
  | .coordinate _ => 1
  | .cartesian cs => cs.length
  | .s2 _ _ => 2
  | .polar _ _ => 2
  | .spherical _ _ _ => 3

/-- `forward_vector_intertwiner` (`dedalus/core/coords.py` L92-93, L176-177, L234-242, L288-296); spherical coordinates are not
separable. -/
noncomputable def Cs.forwardVector : Cs → Nat → Option Mat
  | .coordinate _, _ => some (eye 1)
  | .cartesian cs, _ => some (eye cs.length)
  | .s2 _ _, s => if s = 0 then some (eye 2) else if s = 1 then some uForward else none
  | .polar _ _, s => if s = 0 then some (eye 2) else if s = 1 then some uForward else none
  | .spherical _ _ _, _ => none

/-- `backward_vector_intertwiner` (`dedalus/core/coords.py` L95-96, L179-180, L244-252, L298-306). -/
noncomputable def Cs.backwardVector : Cs → Nat → Option Mat
  | .coordinate _, _ => some (eye 1)
  | .cartesian cs, _ => some (eye cs.length)
  | .s2 _ _, s => if s = 0 then some (eye 2) else if s = 1 then some uForward.dag else none
  | .polar _ _, s => if s = 0 then some (eye 2) else if s = 1 then some uForward.dag else none
  | .spherical _ _ _, _ => none

/-- The loop of `DirectProduct.forward_vector_intertwiner` and `backward_vector_intertwiner` (`dedalus/core/coords.py` L132-152):
`f` is the method of the factors. -/
noncomputable def productFactors (f : Cs → Nat → Option Mat) (subaxis : Nat) : Nat → List Cs → Option (List Mat)
  | _, [] => some []
  | start, cs :: rest =>
    (if start ≤ subaxis ∧ subaxis < start + cs.dim then f cs (subaxis - start) else some (eye cs.dim)).bind fun A =>
      (productFactors f subaxis (start + cs.dim) rest).map (A :: ·)

/-- A tensor index runs over the coordinates of one system or of a direct product. -/
inductive Index where
  | single (cs : Cs)
  | product (css : List Cs)
  deriving DecidableEq

def Index.coords : Index → List Coord
  | .single cs => cs.coords
  | .product css => css.flatMap Cs.coords

def Index.dim : Index → Nat
  | .single cs => cs.dim
  | .product css => (css.map Cs.dim).sum

/-- `forward_intertwiner` (`dedalus/core/coords.py` L57-59, L132-141, L387-399) without the radial case of spherical coordinates. -/
noncomputable def Index.forward (subaxis order : Nat) : Index → Option Mat
  | .single (.spherical _ _ _) =>
    if subaxis = 0 then some (eye (3 ^ order)) else if subaxis = 1 then some (nkron uSpherical order) else none
  | .single cs => (cs.forwardVector subaxis).map fun A => nkron A order
  | .product css => (productFactors Cs.forwardVector subaxis 0 css).map fun As => nkron (blockDiag As) order

/-- `backward_intertwiner` (`dedalus/core/coords.py` L61-63, L143-152, L401-413) without the radial case of spherical coordinates. -/
noncomputable def Index.backward (subaxis order : Nat) : Index → Option Mat
  | .single (.spherical _ _ _) =>
    if subaxis = 0 then some (eye (3 ^ order)) else if subaxis = 1 then some (nkron uSpherical order).dag else none
  | .single cs => (cs.backwardVector subaxis).map fun A => nkron A order
  | .product css => (productFactors Cs.backwardVector subaxis 0 css).map fun As => nkron (blockDiag As) order

/-! ## Recombinations -/

/-- `coord in coords` and `coords.index(coord)`, which compare with `__eq__`. -/
def indexOf (c : Coord) (cs : List Coord) : Option Nat := cs.findIdx? fun d => d.eq c

/-- `spin_recombination_factors` (`dedalus/core/basis.py` L1563-1575) for the second coordinate `coord1` of the basis; the inner
`none` is Python's `None`. -/
noncomputable def factors (coord1 : Coord) : List Index → Option (List (Option Mat))
  | [] => some []
  | cs :: rest =>
    (match indexOf coord1 cs.coords with
      | some subaxis => (cs.forward subaxis 1).map some
      | none => some none).bind fun f => (factors coord1 rest).map (f :: ·)

/-- The loop of `spin_recombination_matrix` over the cached list (`dedalus/core/basis.py` L1579-1582), which it changes. -/
noncomputable def fillFactors (sig : List Index) (fs : List (Option Mat)) : List (Option Mat) :=
  List.zipWith (fun cs f => match f with | none => some (eye cs.dim) | some A => some A) sig fs

/-- `spin_recombination_matrix` for complex data (`dedalus/core/basis.py` L1577-1587): the matrix, and the cached list afterwards. -/
noncomputable def recombinationMatrix (sig : List Index) (cached : List (Option Mat)) (upstream : Nat) : Mat × List (Option Mat) :=
  let filled := fillFactors sig cached
  let mats := filled.filterMap id
  (kron (if upstream > 1 then mats ++ [eye upstream] else mats), filled)

/-- The expansion for real data (`dedalus/core/basis.py` L1588-1592): the sum of `kron(re, I)` and `kron(im, [[0, -1], [1, 0]])`. -/
noncomputable def realMatrix (A : Mat) (i j : Nat) : ℝ :=
  (A.entry (i / 2) (j / 2)).re * (if i % 2 = j % 2 then 1 else 0) +
    (A.entry (i / 2) (j / 2)).im * (if i % 2 = 0 ∧ j % 2 = 1 then -1 else if i % 2 = 1 ∧ j % 2 = 0 then 1 else 0)

/-- Tensor components at one point: a function of the indices. -/
abbrev Comps := List Nat → ℂ

/-- `apply_matrix(A, data, axis=i)` (`dedalus/tools/array.py` L104-130). -/
noncomputable def applyAxis (A : Mat) (i : Nat) (u : Comps) (t : List Nat) : ℂ :=
  ∑ j ∈ Finset.range A.cols, A.entry (t[i]?.getD 0) j * u (t.set i j)

/-- `forward_spin_recombination` for complex data (`dedalus/core/basis.py` L1604-1610): the factors from position `i` on. -/
noncomputable def forwardComplex : Nat → List (Option Mat) → Comps → Comps
  | _, [], u => u
  | i, none :: fs, u => forwardComplex (i + 1) fs u
  | i, some A :: fs, u => forwardComplex (i + 1) fs (applyAxis A i u)

/-- `backward_spin_recombination` for complex data (`dedalus/core/basis.py` L1639-1645). -/
noncomputable def backwardComplex : Nat → List (Option Mat) → Comps → Comps
  | _, [], u => u
  | i, none :: fs, u => backwardComplex (i + 1) fs u
  | i, some A :: fs, u => backwardComplex (i + 1) fs (applyAxis A.dag i u)

/-- Real tensor components: functions of the indices and of the position on the azimuthal axis, where positions `2 l` and
`2 l + 1` hold the cosine and minus-sine coefficients. Other axes are pointwise. -/
abbrev RComps := List Nat → Nat → ℝ

/-- `invsqr2`. -/
noncomputable def invsqr2 : ℝ := 1 / √2

/-- `recombine_forward` (`dedalus/libraries/spin_recombination.pyx` L9-30) on tensor axis `i`, for an azimuthal axis of length `M`;
elements that are not assigned keep the value of `output`. -/
noncomputable def recombineForward (s M i : Nat) (input output : RComps) (t : List Nat) (l : Nat) : ℝ :=
  let a := input (t.set i s)
  let b := input (t.set i (s + 1))
  let j := t[i]?.getD 0
  if j < s then input t l
  else if j < s + 2 then
    if l < 2 * (M / 2) then
      if j = s then (if l % 2 = 0 then (b l + a (l + 1)) * invsqr2 else (b l - a (l - 1)) * invsqr2)
      else (if l % 2 = 0 then (b l - a (l + 1)) * invsqr2 else (b l + a (l - 1)) * invsqr2)
    else output t l
  else input t l

/-- `recombine_backward` (`dedalus/libraries/spin_recombination.pyx` L35-56). -/
noncomputable def recombineBackward (s M i : Nat) (input output : RComps) (t : List Nat) (l : Nat) : ℝ :=
  let a := input (t.set i s)
  let b := input (t.set i (s + 1))
  let j := t[i]?.getD 0
  if j < s then input t l
  else if j < s + 2 then
    if l < 2 * (M / 2) then
      if j = s then (if l % 2 = 0 then (b (l + 1) - a (l + 1)) * invsqr2 else (a (l - 1) - b (l - 1)) * invsqr2)
      else (if l % 2 = 0 then (a l + b l) * invsqr2 else (a l + b l) * invsqr2)
    else output t l
  else input t l

/-- The loops of `forward_spin_recombination` and `backward_spin_recombination` for real data (`dedalus/core/basis.py` L1611-1628,
L1646-1663) from position `i` on, where `step` is the recombination: the two buffers change roles after every step.
`none` if `coord0` is missing in an index. -/
def realLoop (step : Nat → Nat → RComps → RComps → RComps) (coord0 : Coord) :
    Nat → Nat → List Index → List (Option Mat) → RComps → RComps → Option (Nat × RComps × RComps)
  | _, n, [], _, gdata, out => some (n, gdata, out)
  | _, n, _, [], gdata, out => some (n, gdata, out)
  | i, n, _ :: sig, none :: fs, gdata, out => realLoop step coord0 (i + 1) n sig fs gdata out
  | i, n, cs :: sig, some _ :: fs, gdata, out =>
    (indexOf coord0 cs.coords).bind fun s =>
      if n % 2 = 0 then realLoop step coord0 (i + 1) (n + 1) sig fs gdata (step s i gdata out)
      else realLoop step coord0 (i + 1) (n + 1) sig fs (step s i out gdata) out

/-- `forward_spin_recombination` for real data (`dedalus/core/basis.py` L1595-1628): the contents of `out`. -/
noncomputable def forwardReal (coord0 : Coord) (M : Nat) (sig : List Index) (fs : List (Option Mat)) (gdata out : RComps) : Option RComps :=
  if sig = [] then some gdata
  else (realLoop (fun s i => recombineForward s M i) coord0 0 0 sig fs gdata out).map fun r => if r.1 % 2 = 0 then r.2.1 else r.2.2

/-- `backward_spin_recombination` for real data (`dedalus/core/basis.py` L1630-1663): the contents of `out`. -/
noncomputable def backwardReal (coord0 : Coord) (M : Nat) (sig : List Index) (fs : List (Option Mat)) (gdata out : RComps) : Option RComps :=
  if sig = [] then some gdata
  else (realLoop (fun s i => recombineBackward s M i) coord0 0 0 sig fs gdata out).map fun r => if r.1 % 2 = 0 then r.2.1 else r.2.2

end Dedalus.Spin
