import Verif.Global.Model

/-!
# Model: chunked random arrays and `Field.fill_random`

Models /repo/dedalus/tools/random_arrays.py and `Field.fill_random` (/repo/dedalus/core/field.py L898-943).

A numpy generator is a state machine: a seed gives a state, a draw gives a value and the next state. A call
`distribution(size=n)` is n draws in sequence. That numpy generators behave so for the chosen distribution
(no value depends on how many are drawn per call) is an assumption of the model.
-/

namespace Dedalus.Random

open Dedalus.Global Dedalus.Dist

/-- A random generator with the chosen distribution. -/
structure Gen (σ α : Type) where
  seed : Nat → σ
  draw : σ → α × σ

variable {σ α : Type}

/-- `distribution(size=n)`. random_arrays.py L14. -/
def drawN (g : Gen σ α) : Nat → σ → List α × σ
  | 0, s => ([], s)
  | n+1, s =>
    let (x, s1) := g.draw s
    let (xs, s2) := drawN g n s1
    (x :: xs, s2)

/-- The chunk that `chunked_rng` yields with index `k`, when its generator is in state `s` at index 0.
random_arrays.py L7-16. -/
def chunkAt (g : Gen σ α) (chunkSize : Nat) : Nat → σ → List α
  | 0, s => (drawN g chunkSize s).1
  | k+1, s => chunkAt g chunkSize k (drawN g chunkSize s).2

/-- `rng_element`. Division by a zero chunk size is an error. random_arrays.py L19-29. -/
def rngElement (g : Gen σ α) (index seed chunkSize : Nat) : Option α :=
  let chunkSize := min (1 + index) chunkSize
  if chunkSize = 0 then none
  else (chunkAt g chunkSize (index / chunkSize) (g.seed seed))[index % chunkSize]?

/-- `values[selected] = data[mod[selected]]` for `selected = (chunk == div)`. random_arrays.py L49-51. -/
def assignChunk (chunk chunkSize : Nat) (data : List α) : List Nat → List α → Option (List α)
  | [], [] => some []
  | i :: is, v :: vs => do
    let rest ← assignChunk chunk chunkSize data is vs
    if chunk = i / chunkSize then
      let x ← data[i % chunkSize]?
      some (x :: rest)
    else some (v :: rest)
  | _, _ => none

/-- The loop of `rng_elements`: `todo` more chunks after this one (the loop breaks at `max_div`).
random_arrays.py L46-53. -/
def chunkLoop (g : Gen σ α) (chunkSize : Nat) (indices : List Nat) : Nat → Nat → σ → List α → Option (List α)
  | todo, chunk, s, values => do
    let (data, s') := drawN g chunkSize s
    let values ← assignChunk chunk chunkSize data indices values
    match todo with
    | 0 => some values
    | todo+1 => chunkLoop g chunkSize indices todo (chunk + 1) s' values

/-- `rng_elements` on the flattened indices. random_arrays.py L32-54. -/
def rngElements [Zero α] (g : Gen σ α) (indices : List Nat) (seed chunkSize : Nat) : Option (List α) :=
  match indices with
  | [] => (rngElement g 0 seed chunkSize).map fun _ => []
  | i :: is =>
    let mx := is.foldl max i
    let chunkSize := min (1 + mx) chunkSize
    if chunkSize = 0 then none
    else chunkLoop g chunkSize (i :: is) (mx / chunkSize) 0 (g.seed seed) ((i :: is).map fun _ => 0)

/-- `np.ravel_multi_index`, C order. random_arrays.py L89. -/
def ravel : List Nat → List Nat → Nat
  | _ :: ns, i :: is => i * ns.foldl (· * ·) 1 + ravel ns is
  | _, _ => 0

/-- The index array: each element is its flat index. random_arrays.py L57-90. -/
def indexArray (shape : List Nat) : NDArr Nat :=
  { shape := shape, get := fun idx => if inShape idx shape then some (ravel shape idx) else none }

/-- Elementwise `rng_elements` on an array of indices, shape kept. random_arrays.py L122-124. -/
def rngArray [Zero α] (g : Gen σ α) (a : NDArr Nat) (seed chunkSize : Nat) : Option (NDArr α) := do
  let flat ← (coordsList a.shape).mapM a.get
  let vals ← rngElements g flat seed chunkSize
  some { shape := a.shape, get := fun idx => if inShape idx a.shape then vals[ravel a.shape idx]? else none }

/-- `fill_random` of a real field on one process (layout and scales already set). field.py L929-940. -/
def fillReal [Zero α] (g : Gen σ α) (seed chunkSize : Nat) (d : Distn) (coords : List Nat) : Option (NDArr α) := do
  let sl ← d.slices coords
  let sel ← sliceSelect d.comps.length (indexArray (d.comps ++ d.shape)) sl
  let vals ← rngArray g sel seed chunkSize
  let sh ← d.localShape coords
  copyto sh vals

/-- A complex number from its parts. field.py L942-943. -/
def pairUp : Option α → Option α → Option (α × α)
  | some x, some y => some (x, y)
  | _, _ => none

/-- `fill_random` of a complex field: one more axis of size two, taken in full, for the real and the imaginary
part. field.py L931-943. -/
def fillComplex [Zero α] (g : Gen σ α) (seed chunkSize : Nat) (d : Distn) (coords : List Nat) : Option (NDArr (α × α)) := do
  let sl ← d.slices coords
  let sel ← sliceSelect d.comps.length (indexArray (d.comps ++ d.shape ++ [2])) (sl ++ [(0, 2)])
  let vals ← rngArray g sel seed chunkSize
  let sh ← d.localShape coords
  if vals.shape = sh ++ [2] then
    some { shape := sh
           get := fun idx => pairUp (vals.get (idx ++ [0])) (vals.get (idx ++ [1])) }
  else none

end Dedalus.Random
