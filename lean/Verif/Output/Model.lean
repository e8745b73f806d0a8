import Verif.Global.Model
import Verif.Post.Model
import Mathlib.Logic.Function.Basic

/-!
# Model: HDF5 output of tasks

Models how the three file handlers of `dedalus/core/evaluator.py` put the data of the tasks into files: gathered on the root process
(`H5GatherFileHandler`), written in parallel (`H5ParallelFileHandler`), or written to one file per process that a virtual dataset joins
(`H5VirtualFileHandler`), and `merge_task`. Then the attributes that the handlers write and that `dedalus/tools/post.py` reads.

A dataset is the list of its entries along the first axis (writes); an entry is an array. `none` is a Python exception. Names are numbers. The
files of a handler are indexed by their set number; how file names are formed and found is in `Verif.Files`. MPI collectives and the ranks of
the processes are as in `Verif.Global`. The chunking of datasets, dtypes and dimension scales are not modelled.
-/

namespace Dedalus.Output

open Dedalus.Dist Dedalus.Global

variable {α R : Type}

/-- A task: its name, and the distribution of the output layout at the scales of the task (`dedalus/core/evaluator.py` L467-473). -/
structure Task where
  name : Nat
  d : Distn

/-- `local_start` and `local_shape` of one process. -/
structure Part where
  start : List Nat
  count : List Nat

/-- `local_start` along one axis of size `n` (`dedalus/core/evaluator.py` L479-483). -/
def localStart (n : Nat) (e : List Nat) : Nat :=
  match e with
  | [] => n
  | x :: _ => x

/-- `get_data_distribution` (`dedalus/core/evaluator.py` L460-488) for one process. -/
def part (d : Distn) (coords : List Nat) : Option Part :=
  (d.els coords).map fun els => ⟨List.replicate d.comps.length 0 ++ List.zipWith localStart d.shape els, d.comps ++ els.map List.length⟩

/-- `global_shape` (`dedalus/core/evaluator.py` L485-486). -/
def globalShape (d : Distn) : List Nat := d.comps ++ d.shape

/-- `prod(local_shape)` (`dedalus/core/evaluator.py` L457, L799). -/
def size (shape : List Nat) : Nat := shape.foldl (· * ·) 1

/-- The index is inside `slice(start, start+count)` on every axis. -/
def inSlab : List Nat → List Nat → List Nat → Bool
  | [], [], [] => true
  | s :: ss, c :: cs, i :: is => decide (s ≤ i) && decide (i < s + c) && inSlab ss cs is
  | _, _, _ => false

/-- The position within the selection. -/
def shift (start idx : List Nat) : List Nat := List.zipWith (fun i s => i - s) idx start

/-- A new entry of a dataset. -/
def filled (zero : α) (shape : List Nat) : NDArr α := ⟨shape, fun idx => if inShape idx shape then some zero else none⟩

/-- `dset.resize(n, axis=0)`, limited by `maxshape`. -/
def resize {β : Type} (fill : β) (max : Option Nat) (es : List β) (n : Nat) : Option (List β) :=
  if max.all (fun m => decide (n ≤ m)) then some (es.take n ++ List.replicate (n - es.length) fill) else none

/-- `dset.resize(n, axis=0); dset[n-1] = data` (`dedalus/core/evaluator.py` L649-650, L842-843). -/
def writeLast (zero : α) (shape : List Nat) (max : Option Nat) (es : List (NDArr α)) (n : Nat) (data : NDArr α) : Option (List (NDArr α)) :=
  (resize (filled zero shape) max es n).bind fun es' => if data.shape = shape then some (es'.set (n - 1) data) else none

/-- The datasets of the group `tasks` of a file. -/
abbrev Store (α : Type) := Nat → Option (List (NDArr α))

/-- `create_dataset`: an existing name is an error. -/
def addDset {β : Type} (s : Nat → Option β) (name : Nat) (x : β) : Option (Nat → Option β) :=
  match s name with
  | some _ => none
  | none => some (Function.update s name (some x))

/-! ## The three kinds of files -/

/-- What the kinds of handlers do differently: the body of a file, `create_current_file` with `create_task_dataset`, `write_task`, and what one
reads from a dataset of the file. -/
structure Mode (α : Type) where
  File : Type
  create : Option File
  write : File → Nat → Task → (List Nat → NDArr α) → Option File
  read : File → Nat → Option (List (NDArr α))

/-- `create_task_dataset` for all tasks, with one entry (`dedalus/core/evaluator.py` L527-532, L566-572, L679-691). -/
def createStore (zero : α) (tasks : List Task) : Option (Store α) :=
  tasks.foldlM (fun s t => addDset s t.name [filled zero (globalShape t.d)]) fun _ => none

/-- `H5GatherFileHandler` (`dedalus/core/evaluator.py` L617-650). -/
def gatherMode (zero : α) (max : Option Nat) (tasks : List Task) : Mode α where
  File := Store α
  create := createStore zero tasks
  write s n t field := do
    let data ← gather t.d field
    let es ← s t.name
    let es' ← writeLast zero (globalShape t.d) max es n data
    some (Function.update s t.name (some es'))
  read s name := s name

/-- `dset.id.write(memory_space, file_space, data)` (`dedalus/core/evaluator.py` L693-700, L713-726) for one process: the selection must be
inside the dataset unless it is empty. -/
def writeSlab (e : NDArr α) (p : Part) (mem : NDArr α) : Option (NDArr α) :=
  if mem.shape = p.count ∧ (size p.count = 0 ∨ (List.zip (List.zipWith (· + ·) p.start p.count) e.shape).all fun q => decide (q.1 ≤ q.2)) then
    some ⟨e.shape, fun idx => if inSlab p.start p.count idx then mem.get (shift p.start idx) else e.get idx⟩
  else none

/-- `H5ParallelFileHandler` (`dedalus/core/evaluator.py` L653-726). The writes of the processes are done in rank order. -/
def parallelMode (zero : α) (max : Option Nat) (tasks : List Task) : Mode α where
  File := Store α
  create := createStore zero tasks
  write s n t field := do
    let es ← s t.name
    let es' ← resize (filled zero (globalShape t.d)) max es n
    let e ← es'[n - 1]?
    let e' ← (coordsList t.d.mesh).foldlM (fun e c => (part t.d c).bind fun p => writeSlab e p (field c)) e
    some (Function.update s t.name (some (es'.set (n - 1) e')))
  read s name := s name

/-- A virtual dataset: its shape and the parts that are mapped to process files. -/
structure Virtual where
  shape : List Nat
  sources : List (List Nat × Part)

/-- The joint file and the files of the processes, if they have any. -/
structure VFile (α : Type) where
  joint : Nat → Option Virtual
  procs : List Nat → Option (Store α)

/-- `create_task_dataset` of the virtual handler (`dedalus/core/evaluator.py` L788-809). -/
def virtualDset (t : Task) : Option Virtual :=
  ((coordsList t.d.mesh).mapM fun c => (part t.d c).map fun p => (c, p)).map fun l => ⟨globalShape t.d, l.filter fun x => decide (size x.2.count ≠ 0)⟩

/-- `setup_process_file` (`dedalus/core/evaluator.py` L811-826). -/
def processFile (zero : α) (tasks : List Task) (c : List Nat) : Option (Store α) :=
  tasks.foldlM (fun s t => (part t.d c).bind fun p => if size p.count ≠ 0 then addDset s t.name [filled zero p.count] else some s) fun _ => none

/-- `empty` (`dedalus/core/evaluator.py` L739-741) on one process. -/
def noData (tasks : List Task) (c : List Nat) : Bool := !tasks.any fun t => ((part t.d c).map fun p => decide (size p.count ≠ 0)).getD false

/-- `create_current_file` of the virtual handler (`dedalus/core/evaluator.py` L767-786) on the processes `ranks`. -/
def virtualCreate (zero : α) (ranks : List (List Nat)) (tasks : List Task) : Option (VFile α) := do
  let joint ← tasks.foldlM (fun s t => (virtualDset t).bind fun v => addDset s t.name v) fun _ => none
  if ranks.all fun c => noData tasks c || (processFile zero tasks c).isSome then
    some ⟨joint, fun c => if noData tasks c then none else processFile zero tasks c⟩
  else none

/-- `write_task` of the virtual handler (`dedalus/core/evaluator.py` L835-843) on one process. -/
def processWrite (zero : α) (max : Option Nat) (n : Nat) (t : Task) (field : List Nat → NDArr α) (f : VFile α) (c : List Nat) : Option (VFile α) :=
  (part t.d c).bind fun p =>
    if size p.count ≠ 0 then do
      let s ← f.procs c
      let es ← s t.name
      let es' ← writeLast zero p.count max es n (field c)
      some { f with procs := Function.update f.procs c (some (Function.update s t.name (some es'))) }
    else some f

/-- Reading a virtual dataset with unlimited mappings: as long as the longest source, the fill value where there is no source. -/
def virtualRead (zero : α) (f : VFile α) (name : Nat) : Option (List (NDArr α)) :=
  (f.joint name).map fun v =>
    let data := v.sources.filterMap fun x => ((f.procs x.1).bind fun s => s name).map fun es => (x.2, es)
    let writes := if data.isEmpty then 1 else (data.map fun x => x.2.length).foldl max 0
    (List.range writes).map fun w => ⟨v.shape, fun idx =>
      if inShape idx v.shape then
        match data.find? fun x => inSlab x.1.start x.1.count idx with
        | some x => match x.2[w]? with
          | some e => e.get (shift x.1.start idx)
          | none => some zero
        | none => some zero
      else none⟩

/-- `H5VirtualFileHandler` (`dedalus/core/evaluator.py` L727-843). `ranks` are the processes. -/
def virtualMode (zero : α) (max : Option Nat) (ranks : List (List Nat)) (tasks : List Task) : Mode α where
  File := VFile α
  create := virtualCreate zero ranks tasks
  write f n t field := ranks.foldlM (processWrite zero max n t field) f
  read := virtualRead zero

/-! ## The handler -/

/-- A file: the entries of the time scales (`sim_time`, `wall_time`, `timestep`, `iteration` and `write_number` together), and the tasks. -/
structure H5 (R : Type) (B : Type) where
  scales : List R
  body : B

/-- The state of a handler: `set_num`, `file_write_num` and the files. -/
structure State (R : Type) (B : Type) where
  setNum : Nat
  fileNum : Nat
  files : Nat → Option (H5 R B)

/-- One output: the time scales and, for each task, the data on each process. -/
structure Write (α R : Type) where
  record : R
  fields : Nat → List Nat → NDArr α

/-- `get_file` (`dedalus/core/evaluator.py` L497-503) with `create_current_file`. -/
def getFile (M : Mode α) (f : Option (H5 R M.File)) : Option (H5 R M.File) :=
  match f with
  | some f => some f
  | none => M.create.map fun b => ⟨[], b⟩

/-- `process` (`dedalus/core/evaluator.py` L574-595) with `write_file_metadata` (L597-605). `fill` is the fill value of
the time scales. -/
def process (M : Mode α) (fill : R) (max : Option Nat) (tasks : List Task) (st : State R M.File) (w : Write α R) : Option (State R M.File) := do
  let num := st.fileNum + 1
  let next := max.any fun m => decide (num > m)
  let set := if next then st.setNum + 1 else st.setNum
  let num := if next then 1 else num
  let file ← getFile M (st.files set)
  let scales ← resize fill max file.scales num
  let body ← tasks.foldlM (fun b t => M.write b num t (w.fields t.name)) file.body
  some ⟨set, num, Function.update st.files set (some ⟨scales.set (num - 1) w.record, body⟩)⟩

/-- Any number of outputs, one after the other. -/
def run (M : Mode α) (fill : R) (max : Option Nat) (tasks : List Task) (st : State R M.File) (ws : List (Write α R)) : Option (State R M.File) :=
  ws.foldlM (process M fill max tasks) st

/-! ## Merging a virtual dataset in its file -/

/-- A dataset of the joint file: virtual or not, with its entries. -/
structure Dset (α : Type) where
  isVirtual : Bool
  shape : List Nat
  entries : List (NDArr α)

/-- `new_dset[chunk] = old_dset[chunk]` (`dedalus/core/evaluator.py` L861-862): the elements in the selection, writes `lo` to `hi`. -/
def copyChunk (old new : Dset α) (chunk : (Nat × Nat) × Part) : Dset α :=
  { new with entries := new.entries.zipIdx.map fun e =>
      if chunk.1.1 ≤ e.2 ∧ e.2 < chunk.1.2 then
        ⟨e.1.shape, fun idx => if inSlab chunk.2.start chunk.2.count idx then (old.entries[e.2]?).bind fun o => o.get idx else e.1.get idx⟩
      else e.1 }

/-- What `merge_task` does to the group `tasks`, one action after the other. -/
inductive Action (α : Type) where
  | create
  | copy (chunk : (Nat × Nat) × Part)
  | delete
  | move

/-- `merge_task` (`dedalus/core/evaluator.py` L845-865) with the chunks that `iter_chunks` gives; `merged` is the name with `_merged` appended. -/
def mergeActions (chunks : List ((Nat × Nat) × Part)) (overwrite : Bool) : List (Action α) :=
  .create :: chunks.map .copy ++ if overwrite then [.delete, .move] else []

/-- One action on the group. -/
def act (zero : α) (name merged : Nat) (g : Nat → Option (Dset α)) : Action α → Option (Nat → Option (Dset α))
  | .create => (g name).bind fun old =>
    if old.isVirtual then addDset g merged ⟨false, old.shape, List.replicate old.entries.length (filled zero old.shape)⟩ else none
  | .copy chunk => (g name).bind fun old => (g merged).map fun new => Function.update g merged (some (copyChunk old new chunk))
  | .delete => (g name).map fun _ => Function.update g name none
  | .move => (g merged).bind fun new => addDset (Function.update g merged none) name new

/-- `merge_task`, possibly stopped after some actions; an exception leaves the group as it is at that point. -/
def mergeTask (zero : α) (name merged : Nat) : List (Action α) → (Nat → Option (Dset α)) → (Nat → Option (Dset α)) × Bool
  | [], g => (g, true)
  | a :: as, g => match act zero name merged g a with
    | none => (g, false)
    | some g' => mergeTask zero name merged as g'

/-! ## Attributes that are written and read -/

/-- Attributes of a joint file (`dedalus/core/evaluator.py` L514-516). -/
def fileAttrs : List String := ["set_number", "handler_name", "writes"]

/-- Attributes of a dataset of a joint file (`dedalus/core/evaluator.py` L534-536). -/
def dsetAttrs : List String := ["constant", "grid_space", "scales"]

/-- Attributes of a process file: `setup_process_file` makes none (`dedalus/core/evaluator.py` L811-826). -/
def procFileAttrs : List String := []

/-- Attributes of a dataset of a process file (`dedalus/core/evaluator.py` L822-826). -/
def procDsetAttrs : List String := ["ext_mesh", "ext_coords", "global_shape", "local_start", "local_shape"]

/-- How `merge_setup` ends: it is completed, or a KeyError is raised, after some tasks have been created in the joint file. -/
inductive Outcome where
  | done (tasks : List Nat)
  | keyError (key : String) (tasks : List Nat)
  deriving DecidableEq, Repr

/-- The tasks of `merge_setup` (`dedalus/tools/post.py` L264-282), in the order in which h5py lists them, up to the first missing attribute: `global_shape` before the dataset is made
(only for process files), then the metadata. -/
def setupTasks (virtual : Bool) (attrs : List String) : List Nat → List Nat → Outcome
  | [], made => .done made
  | t :: ts, made =>
    if virtual = false ∧ "global_shape" ∉ attrs then .keyError "global_shape" made
    else match ["task_number", "constant", "grid_space", "scales"].find? fun k => decide (k ∉ attrs) with
      | some k => .keyError k (made ++ [t])
      | none => setupTasks virtual attrs ts (made ++ [t])

/-- `merge_setup` (`dedalus/tools/post.py` L225-282): the attributes of the first file, then the tasks. -/
def mergeSetup (virtual : Bool) (file dset : List String) (tasks : List Nat) : Outcome :=
  if "set_number" ∉ file ∧ "file_number" ∉ file then .keyError "file_number" []
  else if "handler_name" ∉ file then .keyError "handler_name" []
  else setupTasks virtual dset tasks []

/-- `merge_virtual_file` (`dedalus/tools/post.py` L136-163) on the file of a virtual handler: it runs like `Post.mergeVirtual`, and an exception of
`merge_setup` after `n` tasks comes after the move, the creation and `n` copies. -/
def mergeVirtualFile (tasks : List Nat) (cleanup : Bool) (d : Post.VDisk) : Post.VDisk :=
  match mergeSetup true fileAttrs dsetAttrs tasks with
  | .done _ => Post.mergeVirtual tasks cleanup .never d
  | .keyError _ made => Post.mergeVirtual tasks cleanup (.raised (2 + made.length)) d

/-- A distributed set: the joint file (virtual, with the time scales, or without tasks) and the process files. -/
structure Set_ where
  joint : Option Post.HFile
  procs : List Nat
  deriving DecidableEq

/-- `merge_distributed_set` (`dedalus/tools/post.py` L188-222) on the files of a virtual handler: the joint file is made anew, and `merge_setup` and
`merge_data` read the attributes of the process files. The second part is whether it ends without exception. -/
def mergeDistributedSet (tasks : List Nat) (cleanup : Bool) (d : Set_) : Set_ × Bool :=
  if d.procs = [] then (⟨some (.real []), d.procs⟩, false)
  else match mergeSetup false procFileAttrs procDsetAttrs tasks with
    | .keyError _ made => (⟨some (.real made), d.procs⟩, false)
    | .done made =>
      if "start" ∉ procDsetAttrs ∨ "count" ∉ procDsetAttrs then (⟨some (.real made), d.procs⟩, false)
      else (⟨some (.real made), if cleanup then [] else d.procs⟩, true)

end Dedalus.Output
