/-!
# Barriers and processes taking turns

Model of `Sync`, `RotateProcesses` and `parallel_mkdir` (`dedalus/tools/parallel.py`). A process is the list of
what it still has to do; processes run in any interleaving, one action at a time. `Barrier()` is two actions,
arriving and leaving: the `k`-th barrier can be left only when all processes have arrived at it (MPI's guarantee). The
body of a `with` statement is two actions, so that other processes can act while it runs; an exception in the body
does not change this, since `__exit__` runs in either case.
-/

namespace Dedalus.Rotate

inductive Act where
  | arrive
  | leave
  | start
  | finish
  deriving DecidableEq, Repr

/-- `for i in range(m): comm.Barrier()` -/
def barriers : Nat → List Act
  | 0 => []
  | m + 1 => .arrive :: .leave :: barriers m

/-- The body of a `with RotateProcesses()` on one process: `__enter__` (`dedalus/tools/parallel.py` L53-55), the body, and
`__exit__` (L57-59). -/
def rotate (size rank : Nat) : List Act := barriers rank ++ .start :: .finish :: barriers (size - rank)

/-- `parallel_mkdir` (L72-78) with `Sync.__exit__` (L34-36): rank 0 makes the directory, then all meet. -/
def mkdir (rank : Nat) : List Act := (if rank = 0 then [.start, .finish] else []) ++ barriers 1

/-- One process: what it has to do, and how many barriers it has arrived at and left. -/
structure Proc where
  todo : List Act
  arrived : Nat
  left : Nat

/-- Actions that do not block, on the process itself. -/
def advance (p : Proc) : Act → List Act → Proc
  | .arrive, rest => ⟨rest, p.arrived + 1, p.left⟩
  | .leave, rest => ⟨rest, p.arrived, p.left + 1⟩
  | .start, rest => ⟨rest, p.arrived, p.left⟩
  | .finish, rest => ⟨rest, p.arrived, p.left⟩

/-- The next action of process `r` out of `n` can happen. -/
def Enabled (n : Nat) (s : Nat → Proc) (a : Act) (r : Nat) : Prop :=
  a = .leave → ∀ q, q < n → (s r).left < (s q).arrived

/-- One action of one of the `n` processes. -/
inductive Step (n : Nat) : (Nat → Proc) → (Nat → Proc) → Prop where
  | act (s : Nat → Proc) (r : Nat) (a : Act) (rest : List Act) : r < n → (s r).todo = a :: rest → Enabled n s a r →
      Step n s (fun q => if q = r then advance (s r) a rest else s q)

/-- The states reached in a number of steps. -/
inductive Run (n : Nat) (prog : Nat → List Act) : Nat → (Nat → Proc) → Prop where
  | init : Run n prog 0 (fun r => ⟨prog r, 0, 0⟩)
  | step {k : Nat} {s t : Nat → Proc} : Run n prog k s → Step n s t → Run n prog (k + 1) t

end Dedalus.Rotate
