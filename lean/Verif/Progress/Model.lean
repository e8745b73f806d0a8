import Mathlib.Data.Rat.Floor

/-!
# Progress messages around a loop

`tools/progress.py`, which wraps the loop that builds the matrices of a solver
(subsystems.py L80).  Times are exact numbers.  A run is the list of the items
of the iterable, each with the reading of the clock when the body of the loop is
done with it.  The body asks for every item.  Messages are kept as the numbers
that go into the text, rates are not rounded.
-/

namespace Dedalus.Progress

/-- `ZeroDivisionError`. -/
inductive Exc
  | zeroDivision
  deriving DecidableEq, Repr

/-- Python's `round`, to the nearest integer and halves to the even one (progress.py L61, L77). -/
def pyRound (q : ℚ) : ℤ :=
  let r := q - ⌊q⌋
  if r < 1 / 2 then ⌊q⌋
  else if 1 / 2 < r then ⌊q⌋ + 1
  else if ⌊q⌋ % 2 = 0 then ⌊q⌋ else ⌊q⌋ + 1

/-- The three forms of a time (progress.py L80-85). -/
inductive Text
  | hms (h m s : ℤ)
  | ms (m s : ℤ)
  | sec (s : ℤ)
  deriving DecidableEq, Repr

/-- `format_time(total_sec)` (progress.py L74-85). -/
def formatTime (total : ℚ) : Text :=
  let sec := Int.fmod (pyRound total) 60
  let totalMin := Int.fdiv (pyRound total) 60
  let min := Int.fmod totalMin 60
  let hr := Int.fdiv totalMin 60
  if hr ≠ 0 then .hms hr min sec else if min ≠ 0 then .ms min sec else .sec sec

/-- The numbers of a message (progress.py L66-71). -/
structure Message where
  completed : Nat
  length : Nat
  percent : ℤ
  elapsed : Text
  remaining : Text
  rate : ℚ
  deriving DecidableEq

/-- What can be seen from outside: an item handed to the body of the loop, or a
message written (progress.py L47, L71). -/
inductive Event (α : Type)
  | item (x : α)
  | message (m : Message)

/-- `iter=`, `frac=` and `dt=`; `none` is infinity (progress.py L35). -/
structure Cadence where
  iter : Option ℤ
  frac : ℚ
  dt : Option ℚ

/-- `min(iter, math.ceil(frac*length))` (progress.py L39). -/
def every (c : Cadence) (length : Nat) : ℤ :=
  match c.iter with
  | none => ⌈c.frac * length⌉
  | some i => min i ⌈c.frac * length⌉

/-- `elapsed_time // dt` (progress.py L51).  Divided by infinity a negative time
gives -1. -/
def timeDiv (elapsed : ℚ) : Option ℚ → Except Exc ℤ
  | none => .ok (if elapsed < 0 then -1 else 0)
  | some d => if d = 0 then .error .zeroDivision else .ok ⌊elapsed / d⌋

/-- `completed // iter` (progress.py L52). -/
def iterDiv (completed : Nat) (iter : ℤ) : Except Exc ℤ :=
  if iter = 0 then .error .zeroDivision else .ok (Int.fdiv completed iter)

/-- The statistics and the message (progress.py L60-70). -/
def build (completed length : Nat) (elapsed : ℚ) : Except Exc Message :=
  let percent := pyRound (100 * completed / length)
  if elapsed = 0 then .error .zeroDivision
  else
    let rate := completed / elapsed
    if rate = 0 then .error .zeroDivision
    else
      let projected := length / rate
      .ok ⟨completed, length, percent, formatTime elapsed, formatTime (projected - elapsed), rate⟩

/-- The body of the loop after `yield` (progress.py L48-71): the message, if any,
and the divisors to remember. -/
def after (n : ℤ) (dt : Option ℚ) (length completed : Nat) (elapsed : ℚ) (lastTime lastIter : ℤ) :
    Except Exc (Option Message × ℤ × ℤ) := do
  let timeDiv ← timeDiv elapsed dt
  let iterDiv ← iterDiv completed n
  if (timeDiv > lastTime ∨ iterDiv > lastIter) ∨ completed = length then
    pure (some (← build completed length elapsed), timeDiv, iterDiv)
  else pure (none, lastTime, lastIter)

/-- The loop (progress.py L45-71), with the events and the exception it ends in. -/
def loop {α : Type} (n : ℤ) (dt : Option ℚ) (length : Nat) (start : ℚ) :
    List (α × ℚ) → Nat → ℤ → ℤ → List (Event α) × Option Exc
  | [], _, _, _ => ([], none)
  | (x, t) :: ps, index, lastTime, lastIter =>
    match after n dt length (index + 1) (t - start) lastTime lastIter with
    | .error e => ([.item x], some e)
    | .ok (m, lastTime, lastIter) =>
      let r := loop n dt length start ps (index + 1) lastTime lastIter
      (.item x :: (m.toList.map .message ++ r.1), r.2)

/-- `track(iterable, write, …)` (progress.py L35-71). -/
def track {α : Type} (c : Cadence) (start : ℚ) (ps : List (α × ℚ)) : List (Event α) × Option Exc :=
  loop (every c ps.length) c.dt ps.length start ps 0 (-1) (-1)

end Dedalus.Progress
