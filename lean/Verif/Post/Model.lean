/-!
# Post-processing

Model of `dedalus/tools/post.py`: how writes and sets are divided between processes, and how distributed and virtual
output files are merged. Files are what is stored in them; one task per distributed set is followed (tasks do not
interact). Scales and attributes other than the number of writes are not modelled.
-/

namespace Dedalus.Post

/-! Assignment of writes and sets -/

/-- `np.clip(x, a_min=lo, a_max=hi)` -/
def clip (x lo hi : Int) : Int := min (max x lo) hi

/-- `int(np.ceil(sum(writes) / MPI_SIZE))` (`dedalus/tools/post.py` L60), with exact division. -/
def blockSize (total size : Nat) : Nat := (total + size - 1) / size

/-- `get_assigned_writes` (L61-69), from a set that starts at write `offset`. -/
def assignedFrom (start block : Nat) : Nat → List Nat → List (Int × Int)
  | _, [] => []
  | offset, w :: ws =>
    let s := clip start offset (offset + w : Nat)
    (s - offset, clip (start + block : Nat) offset (offset + w : Nat) - s) :: assignedFrom start block (offset + w) ws

/-- `get_assigned_writes` (L47-69) on process `rank` of `size`: start and count for each set. -/
def assignedWrites (size rank : Nat) (writes : List Nat) : List (Int × Int) :=
  assignedFrom (rank * blockSize writes.sum size) (blockSize writes.sum size) 0 writes

/-- `visit_writes` (L39-44): the set, start and count of the calls of the function. -/
def visits (size rank : Nat) (writes : List Nat) : List (Nat × Int × Int) :=
  ((assignedWrites size rank writes).zipIdx.map fun p => (p.2, p.1.1, p.1.2)).filter fun v => v.2.2 ≠ 0

/-- `l[0::step]`, for a list of at most `fuel` elements -/
def everyNth {α : Type} (step : Nat) : Nat → List α → List α
  | 0, _ => []
  | _ + 1, [] => []
  | fuel + 1, x :: xs => x :: everyNth step fuel (xs.drop (step - 1))

/-- `get_assigned_sets` (L90-110): `set_paths[MPI_RANK::MPI_SIZE]`. -/
def assignedSets {α : Type} (size rank : Nat) (l : List α) : List α := everyNth size l.length (l.drop rank)

/-! Merging a distributed set -/

/-- The part of a task in the file of one process. -/
structure ProcFile (V : Type) where
  start : List Nat
  count : List Nat
  shape : List Nat
  writes : Nat
  data : Nat → List Nat → V

/-- A merged task. -/
structure Joint (V : Type) where
  writes : Nat
  shape : List Nat
  data : Nat → List Nat → V

/-- The index is in `slice(s, s+c)` on every axis. -/
def inBlock : List Nat → List Nat → List Nat → Bool
  | [], [], [] => true
  | s :: ss, c :: cs, i :: is => decide (s ≤ i) && decide (i < s + c) && inBlock ss cs is
  | _, _, _ => false

/-- The index within the block. -/
def localIndex (start idx : List Nat) : List Nat := List.zipWith (fun i s => i - s) idx start

/-- `merge_data` (L317-342): `joint_dset[slices] = proc_dset[:]`, where a single write is broadcast to all writes and
other mismatches raise (`none`). -/
def mergeData {V : Type} (j : Joint V) (p : ProcFile V) : Option (Joint V) :=
  if p.writes = j.writes then
    some { j with data := fun w i => if inBlock p.start p.count i then p.data w (localIndex p.start i) else j.data w i }
  else if p.writes = 1 then
    some { j with data := fun w i => if inBlock p.start p.count i then p.data 0 (localIndex p.start i) else j.data w i }
  else none

/-- The joint file: closed properly, or not. -/
inductive JointFile (V : Type) where
  | broken
  | whole (j : Joint V)

/-- The directory of a handler: process files by rank, whether their folder exists, and the joint file. -/
structure Disk (V : Type) where
  procs : List (Nat × ProcFile V)
  folder : Bool
  joint : Option (JointFile V)

inductive Op (V : Type) where
  /-- `h5py.File(joint_path, mode='w')` -/
  | create
  /-- `merge_setup`: shape and writes of the first process file; raises without process files -/
  | setup (ps : List (Nat × ProcFile V))
  | merge (p : ProcFile V)
  | close
  | unlink (r : Nat)
  | rmdir

/-- `merge_distributed_set` (L203-222) as a sequence of actions on the disk. -/
def mergeOps {V : Type} (cleanup : Bool) (d : Disk V) : List (Op V) :=
  .create :: .setup d.procs :: d.procs.map (fun p => .merge p.2) ++ .close ::
    (if cleanup then d.procs.map (fun p => .unlink p.1) ++ [.rmdir] else [])

/-- Executing the actions; `zero` is the fill value. An exception ends the run, leaving an incomplete joint file if it is
open. -/
def exec {V : Type} (zero : V) : List (Op V) → Disk V → Option (Joint V) → Disk V
  | [], d, _ => d
  | .create :: ops, d, _ => exec zero ops { d with joint := some .broken } none
  | .setup [] :: _, d, _ => d
  | .setup (p :: _) :: ops, d, _ => exec zero ops d (some ⟨p.2.writes, p.2.shape, fun _ _ => zero⟩)
  | .merge _ :: _, d, none => d
  | .merge p :: ops, d, some j =>
    match mergeData j p with
    | none => d
    | some j' => exec zero ops d (some j')
  | .close :: _, d, none => d
  | .close :: ops, d, some j => exec zero ops { d with joint := some (.whole j) } none
  | .unlink r :: ops, d, o => exec zero ops { d with procs := d.procs.filter (fun p => p.1 ≠ r) } o
  | .rmdir :: ops, d, o => exec zero ops { d with folder := false } o

/-- A run that stops (is killed) after `k` actions, unless it ends before. -/
def mergeRun {V : Type} (zero : V) (cleanup : Bool) (k : Nat) (d : Disk V) : Disk V :=
  exec zero ((mergeOps cleanup d).take k) d none

/-- A run that is not interrupted. -/
def mergeFull {V : Type} (zero : V) (cleanup : Bool) (d : Disk V) : Disk V := exec zero (mergeOps cleanup d) d none

/-! Merging a virtual file -/

/-- An HDF5 file: a virtual file (referring to the process files), a file with data of its own for some tasks, or a file
that was not closed. -/
inductive HFile where
  | virtual
  | real (tasks : List Nat)
  | broken
  deriving DecidableEq

/-- The virtual file `x_s1.h5`, the temporary file `tmp_x_s1.h5` and the folder `x_s1` with the process files. -/
structure VDisk where
  main : Option HFile
  tmp : Option HFile
  folder : Bool
  deriving DecidableEq

/-- How a run ends: after all actions, killed after `k` actions (files that are open are not closed), or by an exception
after `k` actions (`with` closes the file). -/
inductive Stop where
  | never
  | killed (k : Nat)
  | raised (k : Nat)

/-- The tasks that `merge_virtual` copies from the temporary file, with data as far as the folder exists; `none`: cannot
be opened. -/
def copied (tasks : List Nat) (folder : Bool) : Option HFile → Option (List Nat)
  | some .virtual => some (if folder then tasks else [])
  | some (.real ts) => some ts
  | _ => none

/-- `merge_virtual_file` (L136-163). `tasks` are the tasks of the set. Actions: move, create, one copy for each task, close
with removal of the temporary file, and the cleanup. -/
def mergeVirtual (tasks : List Nat) (cleanup : Bool) (stop : Stop) (d : VDisk) : VDisk :=
  match d.main with
  | none => d
  | some f =>
    match copied tasks d.folder (some f) with
    | none =>
      -- the file that was moved cannot be read: the new joint file is empty
      match stop with
      | .killed 0 => d
      | .raised 0 => d
      | .killed 1 => ⟨none, some f, d.folder⟩
      | .raised 1 => ⟨none, some f, d.folder⟩
      | .killed _ => ⟨some .broken, some f, d.folder⟩
      | _ => ⟨some (.real []), some f, d.folder⟩
    | some ts =>
      let finished : VDisk := ⟨some (.real ts), none, if cleanup then false else d.folder⟩
      let during (k : Nat) (file : HFile) : VDisk :=
        if k = 0 then d
        else if k = 1 then ⟨none, some f, d.folder⟩
        else if k < ts.length + 3 then ⟨some file, some f, d.folder⟩
        else if k = ts.length + 3 then ⟨some (.real ts), none, d.folder⟩
        else finished
      match stop with
      | .never => finished
      | .killed k => during k .broken
      | .raised k => during k (.real (ts.take (k - 2)))

end Dedalus.Post
