import Verif.Dist.Block
import Mathlib.Logic.Function.Basic

/-!
# Model: MPI transposes

Models `AlltoallvTranspose`, `ColDistributor` and `RowDistributor` of
/repo/dedalus/core/transposes.pyx. Arrays are four-dimensional ("reduced" shape N0,N1,N2,N3), as
in the code; a local array is a function of its local indices, buffers are lists of values.
Simplifications: C integers do not overflow; a nested `for` loop is written as iteration over the
list of its index tuples in loop order; `N3` already includes the `datasize` factor.
-/

namespace Dedalus.Transpose

open Dedalus.Dist (ceilDiv)

/-- Index of a reduced array. -/
abbrev Idx := Nat × Nat × Nat × Nat

/-- A reduced array. -/
abbrev Arr (α : Type) := Idx → α

/-- Global reduced shape and number of processes. transposes.pyx L295-298, and `pycomm.size`. -/
structure Geom where
  N0 : Nat
  N1 : Nat
  N2 : Nat
  N3 : Nat
  P : Nat

/-- How the two transposed axes are cut: start and end of each process' rows and columns. -/
structure Cut where
  rowStart : Nat → Nat
  rowEnd : Nat → Nat
  colStart : Nat → Nat
  colEnd : Nat → Nat

/-- transposes.pyx L300-308. `math.ceil(n / size)` is the exact ceiling of the quotient. -/
def alltoallCut (g : Geom) : Cut :=
  let B1 := ceilDiv g.N1 g.P
  let B2 := ceilDiv g.N2 g.P
  { rowStart := fun r => min (B1 * r) g.N1
    rowEnd := fun r => min (B1 * (r + 1)) g.N1
    colStart := fun r => min (B2 * r) g.N2
    colEnd := fun r => min (B2 * (r + 1)) g.N2 }

/-- transposes.pyx L310-313. -/
def Cut.rowCount (c : Cut) (r : Nat) : Nat := c.rowEnd r - c.rowStart r
def Cut.colCount (c : Cut) (r : Nat) : Nat := c.colEnd r - c.colStart r

/-- `range(a, b)`. -/
def rng (a b : Nat) : List Nat := List.range' a (b - a)

/-- Index tuples of a four-fold loop nest in loop order. -/
def nest (l0 l1 l2 l3 : List Nat) : List Idx :=
  l0.flatMap fun n0 => l1.flatMap fun n1 => l2.flatMap fun n2 => l3.map fun n3 => (n0, n1, n2, n3)

/-- Loop order of `split_rows`/`combine_rows` on rank `r`. transposes.pyx L371-379, L393-401. -/
def rowsOrder (g : Geom) (c : Cut) (r : Nat) : List Idx :=
  (List.range g.P).flatMap fun proc =>
    nest (List.range g.N0) (rng (c.rowStart proc) (c.rowEnd proc))
      (List.range (c.colCount r)) (List.range g.N3)

/-- Loop order of `split_columns`/`combine_columns` on rank `r`.
transposes.pyx L415-423, L437-445. -/
def colsOrder (g : Geom) (c : Cut) (r : Nat) : List Idx :=
  (List.range g.P).flatMap fun proc =>
    nest (List.range g.N0) (List.range (c.rowCount r))
      (rng (c.colStart proc) (c.colEnd proc)) (List.range g.N3)

/-- `B[i] = A[idx]; i = i + 1` over a loop order: `split_rows` (L360-379) and `split_columns`
(L404-423). The buffer content after the loop; `none` if the loop overruns the buffer of the given
size (bounds checks are off in the code). A longer buffer would keep its old tail. -/
def split {α : Type} (order : List Idx) (A : Arr α) (buf : List α) : Option (List α) :=
  if order.length ≤ buf.length then some (order.map A ++ buf.drop order.length) else none

/-- `A[idx] = B[i]; i = i + 1` over a loop order: `combine_rows` (L382-401) and `combine_columns`
(L426-445). `none` when the loop reads past the buffer. -/
def combine {α : Type} : List Idx → List α → Arr α → Option (Arr α)
  | [], _, A => some A
  | _ :: _, [], _ => none
  | t :: ts, b :: bs, A => combine ts bs (Function.update A t b)

/-- Copy a received segment into the receive buffer at a displacement; `none` out of range. -/
def writeSeg {α : Type} (buf : List α) (off : Nat) (seg : List α) : Option (List α) :=
  if off + seg.length ≤ buf.length then
    some (buf.take off ++ seg ++ buf.drop (off + seg.length))
  else none

/-- Read a segment to send; `none` out of range. -/
def readSeg {α : Type} (buf : List α) (off n : Nat) : Option (List α) :=
  if off + n ≤ buf.length then some ((buf.drop off).take n) else none

/-- What rank `q` receives in `MPI_Alltoallv`, sender by sender. `none` if a sender's count differs
from the receiver's count, or a segment is out of range. -/
def recvLoop {α : Type} (send : Nat → List α) (scount sdispl : Nat → Nat → Nat)
    (rcount rdispl : Nat → Nat → Nat) (q : Nat) : List Nat → List α → Option (List α)
  | [], buf => some buf
  | p :: ps, buf =>
    if scount p q = rcount q p then do
      let seg ← readSeg (send p) (sdispl p q) (scount p q)
      let buf' ← writeSeg buf (rdispl q p) seg
      recvLoop send scount sdispl rcount rdispl q ps buf'
    else none

/-- `MPI_Alltoallv` on `P` ranks (the MPI standard's semantics): result on rank `q`. -/
def alltoallv {α : Type} (P : Nat) (send : Nat → List α) (scount sdispl : Nat → Nat → Nat)
    (rcount rdispl : Nat → Nat → Nat) (recv : Nat → List α) (q : Nat) : Option (List α) :=
  recvLoop send scount sdispl rcount rdispl q (List.range P) (recv q)

/-- transposes.pyx L318-322: displacements and counts on rank `r` for peer `k`. -/
def clDispl (g : Geom) (c : Cut) (r k : Nat) : Nat := g.N0 * c.colCount r * g.N3 * c.rowStart k
def rlDispl (g : Geom) (c : Cut) (r k : Nat) : Nat := g.N0 * c.rowCount r * g.N3 * c.colStart k
def clCount (g : Geom) (c : Cut) (r k : Nat) : Nat := g.N0 * c.colCount r * g.N3 * c.rowCount k
def rlCount (g : Geom) (c : Cut) (r k : Nat) : Nat := g.N0 * c.rowCount r * g.N3 * c.colCount k

/-- transposes.pyx L324-325: buffer sizes on rank `r`. -/
def clSize (g : Geom) (c : Cut) (r : Nat) : Nat := g.N0 * g.N1 * c.colCount r * g.N3
def rlSize (g : Geom) (c : Cut) (r : Nat) : Nat := g.N0 * c.rowCount r * g.N2 * g.N3

/-- Run an optional per-rank computation on all ranks `< P`; `none` if it fails on some rank. -/
def allRanks {β : Type} (P : Nat) (dflt : Nat → β) (f : Nat → Option β) : Option (Nat → β) :=
  if (List.range P).all (fun r => (f r).isSome) then some (fun r => (f r).getD (dflt r)) else none

/-- `AlltoallvTranspose.localize_rows` on all ranks together. transposes.pyx L329-342.
`CL r`, `RL r` are the local arrays, `clBuf r`, `rlBuf r` the previous buffer contents. -/
def localizeRows {α : Type} (g : Geom) (c : Cut) (clBuf rlBuf : Nat → List α)
    (CL RL : Nat → Arr α) : Option (Nat → Arr α) := do
  let send ← allRanks g.P clBuf fun r =>
    if c.colCount r > 0 then split (rowsOrder g c r) (CL r) (clBuf r) else some (clBuf r)
  let recv ← allRanks g.P rlBuf fun q =>
    alltoallv g.P send (clCount g c) (clDispl g c) (rlCount g c) (rlDispl g c) rlBuf q
  allRanks g.P RL fun q =>
    if c.rowCount q > 0 then combine (colsOrder g c q) (recv q) (RL q) else some (RL q)

/-- `AlltoallvTranspose.localize_columns` on all ranks together. transposes.pyx L344-357. -/
def localizeColumns {α : Type} (g : Geom) (c : Cut) (clBuf rlBuf : Nat → List α)
    (CL RL : Nat → Arr α) : Option (Nat → Arr α) := do
  let send ← allRanks g.P rlBuf fun r =>
    if c.rowCount r > 0 then split (colsOrder g c r) (RL r) (rlBuf r) else some (rlBuf r)
  let recv ← allRanks g.P clBuf fun q =>
    alltoallv g.P send (rlCount g c) (rlDispl g c) (clCount g c) (clDispl g c) clBuf q
  allRanks g.P CL fun q =>
    if c.colCount q > 0 then combine (rowsOrder g c q) (recv q) (CL q) else some (CL q)

/-- `RowDistributor` cut: columns are block distributed, rows are on all ranks.
transposes.pyx L575-585. -/
def rowDistCut (g : Geom) : Cut :=
  let B2 := ceilDiv g.N2 g.P
  { rowStart := fun _ => 0
    rowEnd := fun _ => g.N1
    colStart := fun r => min (B2 * r) g.N2
    colEnd := fun r => min (B2 * (r + 1)) g.N2 }

/-- `ColDistributor` cut. transposes.pyx L483-493. -/
def colDistCut (g : Geom) : Cut :=
  let B1 := ceilDiv g.N1 g.P
  { rowStart := fun r => min (B1 * r) g.N1
    rowEnd := fun r => min (B1 * (r + 1)) g.N1
    colStart := fun _ => 0
    colEnd := fun _ => g.N2 }

/-- `MPI_Allgatherv`: rank `p` contributes its first `scount p` values, every rank `q` stores them
at `rdispl q p`, expecting `rcount q p` values. -/
def allgatherv {α : Type} (P : Nat) (send : Nat → List α) (scount : Nat → Nat)
    (rcount rdispl : Nat → Nat → Nat) (recv : Nat → List α) (q : Nat) : Option (List α) :=
  recvLoop send (fun p _ => scount p) (fun _ _ => 0) rcount rdispl q (List.range P) (recv q)

/-- C-order of a reduced array: `ravel()`. -/
def raveled {α : Type} (n0 n1 n2 n3 : Nat) (A : Arr α) : List α :=
  (nest (List.range n0) (List.range n1) (List.range n2) (List.range n3)).map A

/-- `RowDistributor.localize_rows`. transposes.pyx L607-619. The whole buffer is overwritten by the
ravelled input (numpy raises if the sizes differ). -/
def rowDistLocalizeRows {α : Type} (g : Geom) (rlBuf : Nat → List α) (CL RL : Nat → Arr α) :
    Option (Nat → Arr α) := do
  let c := rowDistCut g
  let send : Nat → List α := fun r => raveled g.N0 g.N1 (c.colCount r) g.N3 (CL r)
  let recv ← allRanks g.P rlBuf fun q =>
    allgatherv g.P send (fun p => clCount g c p p) (rlCount g c) (rlDispl g c) rlBuf q
  allRanks g.P RL fun q => combine (colsOrder g c q) (recv q) (RL q)

/-- `RowDistributor.localize_columns`: restrict to the local columns. transposes.pyx L621-629. -/
def rowDistLocalizeColumns {α : Type} (g : Geom) (RL : Nat → Arr α) : Nat → Arr α :=
  fun r (n0, n1, n2, n3) => RL r (n0, n1, (rowDistCut g).colStart r + n2, n3)

/-- `ColDistributor.localize_columns`. transposes.pyx L525-537. -/
def colDistLocalizeColumns {α : Type} (g : Geom) (clBuf : Nat → List α) (CL RL : Nat → Arr α) :
    Option (Nat → Arr α) := do
  let c := colDistCut g
  let send : Nat → List α := fun r => raveled g.N0 (c.rowCount r) g.N2 g.N3 (RL r)
  let recv ← allRanks g.P clBuf fun q =>
    allgatherv g.P send (fun p => rlCount g c p p) (clCount g c) (clDispl g c) clBuf q
  allRanks g.P CL fun q => combine (rowsOrder g c q) (recv q) (CL q)

/-- `ColDistributor.localize_rows`: restrict to the local rows. transposes.pyx L515-523. -/
def colDistLocalizeRows {α : Type} (g : Geom) (CL : Nat → Arr α) : Nat → Arr α :=
  fun r (n0, n1, n2, n3) => CL r (n0, (colDistCut g).rowStart r + n1, n2, n3)

end Dedalus.Transpose
