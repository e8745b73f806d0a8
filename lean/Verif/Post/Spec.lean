import Verif.Post.Model

/-!
# What merging should do

`g w i` is the value of the global array at write `w` and index `i`.
-/

namespace Dedalus.Post

variable {V : Type}

/-- An index of an array of the given shape. -/
def InShape : List Nat → List Nat → Prop
  | [], [] => True
  | n :: ns, i :: is => i < n ∧ InShape ns is
  | _, _ => False

/-- The global index of a local one. -/
def globalIndex (start idx : List Nat) : List Nat := List.zipWith (· + ·) start idx

/-- The process files of a set hold the global array `g`, with `W` writes: the blocks cover all indices, and each file has
the values of its block. -/
structure Distributed (ps : List (Nat × ProcFile V)) (W : Nat) (shape : List Nat) (g : Nat → List Nat → V) : Prop where
  nonempty : ps ≠ []
  writes : ∀ p ∈ ps, p.2.writes = W
  shapes : ∀ p ∈ ps, p.2.shape = shape
  axes : ∀ p ∈ ps, p.2.start.length = p.2.count.length
  covers : ∀ i, InShape shape i → ∃ p ∈ ps, ∃ l, InShape p.2.count l ∧ i = globalIndex p.2.start l
  values : ∀ p ∈ ps, ∀ w l, w < W → InShape p.2.count l → p.2.data w l = g w (globalIndex p.2.start l)
  ranks : (ps.map Prod.fst).Nodup

/-- The value `v` for write `w` and index `i` is somewhere on the disk. -/
def Holds (d : Disk V) (w : Nat) (i : List Nat) (v : V) : Prop :=
  (∃ j, d.joint = some (.whole j) ∧ w < j.writes ∧ InShape j.shape i ∧ j.data w i = v) ∨
  ∃ p ∈ d.procs, ∃ l, w < p.2.writes ∧ InShape p.2.count l ∧ i = globalIndex p.2.start l ∧ p.2.data w l = v

/-- Nothing is lost. -/
def NoLoss (d : Disk V) (W : Nat) (shape : List Nat) (g : Nat → List Nat → V) : Prop :=
  ∀ w i, w < W → InShape shape i → Holds d w i (g w i)

/-- The joint file is the global array. -/
def Merged (d : Disk V) (W : Nat) (shape : List Nat) (g : Nat → List Nat → V) : Prop :=
  ∃ j, d.joint = some (.whole j) ∧ j.writes = W ∧ j.shape = shape ∧ ∀ w i, w < W → InShape shape i → j.data w i = g w i

/-- The data of a task are somewhere on the disk: in the process files, or in a file with data of its own. -/
def VHolds (d : VDisk) (t : Nat) : Prop :=
  d.folder = true ∨ (∃ ts, d.main = some (.real ts) ∧ t ∈ ts) ∨ ∃ ts, d.tmp = some (.real ts) ∧ t ∈ ts

end Dedalus.Post
