import Mathlib.Data.List.Basic

/-!
# Model: set and write numbering of the HDF5 file handlers

Models `H5FileHandlerBase.__init__` (L382-447), `current_path`/`current_file` (L487-495), `get_file`
and `create_current_file` (L497-510), `process` (L574-595) and `write_file_metadata`/`write_task`
(L597-605, L641-650) of /repo/dedalus/core/evaluator.py. One directory is modelled (the handler's
folder), as a list of named files; a file is its list of writes, a write being its write number and
an opaque payload (other time scales and task data, which are written at the same index).

Simplified: all processes see the same disk, only the root process writes metadata; the `virtual`
handler's per-process folders are not modelled (its joint file is the modelled file); names are
compared literally, i.e. the stem contains no glob or regular expression metacharacters; `\d` is an
ASCII digit.
-/

namespace Dedalus.Files

/-- File and folder names. -/
abbrev Name := List Char

/-- `PurePath.stem` and `PurePath.suffix` of the last path component: split at the last dot, if it is
neither the first nor the last character. -/
def splitName (n : Name) : Name × Name :=
  let tail := n.reverse.takeWhile (· ≠ '.')
  if tail.length = n.length then (n, [])
  else
    let i := n.length - tail.length - 1
    if 0 < i ∧ i + 1 < n.length then (n.take i, n.drop i) else (n, [])

/-- `base_path.stem`. -/
def stem (n : Name) : Name := (splitName n).1

/-- `path.with_suffix('.h5')`. -/
def withH5 (n : Name) : Name := (splitName n).1 ++ ".h5".toList

/-- `f"{self.name}_s{self.set_num}"`. evaluator.py L489. -/
def setName (base : Name) (k : Nat) : Name := stem base ++ "_s".toList ++ Nat.toDigits 10 k

/-- `current_file`. evaluator.py L493-495. -/
def fileName (base : Name) (k : Nat) : Name := withH5 (setName base k)

variable {α : Type}

/-- One write. -/
structure Rec (α : Type) where
  number : Nat
  payload : α
deriving DecidableEq, Repr

abbrev File (α : Type) := List (Rec α)

/-- The handler's folder. -/
abbrev Disk (α : Type) := List (Name × File α)

def Disk.get (d : Disk α) (n : Name) : Option (File α) := (d.find? (fun e => e.1 == n)).map (·.2)

/-- Replace the contents of a file. -/
def Disk.write (d : Disk α) (n : Name) (f : File α) : Disk α :=
  d.map (fun e => if e.1 == n then (e.1, f) else e)

/-- Create a file without writes if it does not exist. evaluator.py L497-510. -/
def Disk.ensure (d : Disk α) (n : Name) : Disk α :=
  match d.get n with
  | some _ => d
  | none => d ++ [(n, [])]

inductive Exc
  | valueError
  | indexError
  | badMode
deriving DecidableEq, Repr

/-- Names matched by `glob('{stem}_s*')`. evaluator.py L402-403. -/
def globSets (base : Name) (d : Disk α) : List Name :=
  (d.map (·.1)).filter (fun n => (stem base ++ "_s".toList).isPrefixOf n)

/-- `re.match("{}_s(\d+)$", set.stem)` and `int(...)`. evaluator.py L416-418. -/
def setNumber? (base : Name) (entry : Name) : Option Nat :=
  let p := stem base ++ "_s".toList
  if p.isPrefixOf (stem entry) then
    let ds := (stem entry).drop p.length
    if ds ≠ [] ∧ ds.all Char.isDigit then some (Nat.ofDigitChars 10 ds 0) else none
  else none

inductive Mode
  | overwrite
  | append

structure Handler where
  base : Name
  maxWrites : Option Nat
  setNum : Nat
  total : Nat
  fileWrites : Nat
deriving DecidableEq, Repr

/-- `__init__`. evaluator.py L400-442. `max` of an empty list raises ValueError, `[-1]` of an empty
dataset raises IndexError (L419, L424). -/
def open_ (base : Name) (maxWrites : Option Nat) (mode : Mode) (d : Disk α) : Except Exc (Handler × Disk α) :=
  match mode with
  | .overwrite => .ok (⟨base, maxWrites, 1, 0, 0⟩, d.filter (fun e => !(stem base ++ "_s".toList).isPrefixOf e.1))
  | .append =>
    if globSets base d = [] then .ok (⟨base, maxWrites, 0 + 1, 0, 0⟩, d)
    else
      match (globSets base d).filterMap (setNumber? base) with
      | [] => .error .valueError
      | k :: ks =>
        let maxSet := ks.foldl max k
        match d.get (setName base maxSet ++ ".h5".toList) with
        | none => .ok (⟨base, maxWrites, maxSet + 1, 0, 0⟩, d)
        | some f =>
          match f.getLast? with
          | none => .error .indexError
          | some r => .ok (⟨base, maxWrites, maxSet + 1, r.number, 0⟩, d)

/-- `dset.resize(n, axis=0); dset[n-1] = r`; new entries get the fill value. `maxshape` limits `n`.
evaluator.py L523-526, L604-605. -/
def resizeSet (maxWrites : Option Nat) (fill r : Rec α) (f : File α) (n : Nat) : Except Exc (File α) :=
  match maxWrites with
  | some m => if m < n then .error .valueError
    else .ok ((f.take n ++ List.replicate (n - f.length) fill).set (n - 1) r)
  | none => .ok ((f.take n ++ List.replicate (n - f.length) fill).set (n - 1) r)

/-- `max_writes is not None and k > max_writes`. evaluator.py L580-581. -/
def overflow (maxWrites : Option Nat) (k : Nat) : Bool :=
  match maxWrites with
  | some m => decide (m < k)
  | none => false

/-- `process`. evaluator.py L574-595. `fill` is the payload of unwritten entries. -/
def process (fill : α) (h : Handler) (d : Disk α) (p : α) : Except Exc (Handler × Disk α) :=
  let total := h.total + 1
  let fw := h.fileWrites + 1
  let next := overflow h.maxWrites fw
  let setNum := if next then h.setNum + 1 else h.setNum
  let fw := if next then 1 else fw
  let name := fileName h.base setNum
  let d := d.ensure name
  match d.get name with
  | none => .error .indexError
  | some f =>
    match resizeSet h.maxWrites ⟨0, fill⟩ ⟨total, p⟩ f fw with
    | .error e => .error e
    | .ok f' => .ok ({ h with setNum := setNum, total := total, fileWrites := fw }, d.write name f')

/-- A sequence of writes. -/
def processAll (fill : α) : Handler → Disk α → List α → Except Exc (Handler × Disk α)
  | h, d, [] => .ok (h, d)
  | h, d, p :: ps =>
    match process fill h d p with
    | .error e => .error e
    | .ok (h, d) => processAll fill h d ps

/-- One run of a program: open the handler in append mode and write. -/
structure Session (α : Type) where
  maxWrites : Option Nat
  payloads : List α

/-- Runs one after the other, each restarted in append mode. -/
def runSessions (fill : α) (base : Name) : Disk α → List (Session α) → Except Exc (Disk α)
  | d, [] => .ok d
  | d, s :: ss =>
    match open_ base s.maxWrites .append d with
    | .error e => .error e
    | .ok (h, d) =>
      match processAll fill h d s.payloads with
      | .error e => .error e
      | .ok (_, d) => runSessions fill base d ss

end Dedalus.Files
