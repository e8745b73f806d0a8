import Verif.Field.Model

/-!
# Model: fields locked to layouts

Models `LockedField` of /repo/dedalus/core/field.py (L1003-1043) and the operator `Lock`, with `Grid` and `Coeff`, of
/repo/dedalus/core/operators.py (L787-832), on top of the model of fields in `Verif.Field.Model`. An operation returns the state
it leaves behind together with the exception it raised, if any: a move that is refused half way is not taken back.
-/

namespace Dedalus.Locked

open Dedalus.Dist Dedalus.Field

variable {Dat : Type}

/-- What the tuple `allowed_layouts` may contain: a layout (its index), or a list of layouts. The second happens through
`Lock.operate`. field.py L1029-1030, operators.py L821. -/
inductive Entry
  | layout (n : Nat)
  | list (ls : List Nat)
deriving DecidableEq

/-- Exceptions; `diverges` stands for a loop that does not end. -/
inductive Exc
  | value
  | attribute
  | index
  | diverges
deriving DecidableEq

/-- A locked field: a field and `allowed_layouts`, an attribute that is missing until one of the `lock` methods was called.
field.py L1003-1004, L1029-1033. -/
structure LState (Dat : Type) where
  f : FState Dat
  allowed : Option (List Entry)

/-- The state left and the exception raised. -/
abbrev Res (Dat : Type) := LState Dat × Option Exc

/-- `change_scales`. field.py L1006-1009. `remedy_scales` raises ValueError for zero scales. -/
def changeScales (E : Env Dat) (l : LState Dat) (a : ScaleArg) : Res Dat :=
  match remedy E.D a with
  | none => (l, some .value)
  | some s => if s ≠ l.f.scales then (l, some .value) else (l, none)

/-- `towards_grid_space`. field.py L1011-1018. -/
def towardsGrid (E : Env Dat) (l : LState Dat) : Res Dat :=
  if l.f.layout + 1 < E.lays.length then
    match l.allowed with
    | none => (l, some .attribute)
    | some es =>
      if Entry.layout (l.f.layout + 1) ∈ es then
        match Field.towardsGrid E l.f with
        | some f => ({ l with f := f }, none)
        | none => (l, some .index)
      else (l, some .value)
  else (l, some .index)

/-- `Field.towards_coeff_space` in layout 0: `paths[-1]` is the last path, and its `decrement` leaves the field in the layout
before the last. field.py L669-672, distributor.py L611-649. -/
def wrapCoeff (E : Env Dat) (f : FState Dat) : Option (FState Dat) :=
  match E.paths.getLast? with
  | some p => some { (f.setMem f.cur (E.down p f.scales f.data)) with layout := E.paths.length - 1 }
  | none => none

/-- `towards_coeff_space`. The layout asked for is `layouts[index - 1]`, the last one in layout 0. field.py L1020-1027. -/
def towardsCoeff (E : Env Dat) (l : LState Dat) : Res Dat :=
  let new := if l.f.layout = 0 then E.lays.length - 1 else l.f.layout - 1
  match l.allowed with
  | none => (l, some .attribute)
  | some es =>
    if Entry.layout new ∈ es then
      match (if l.f.layout = 0 then wrapCoeff E l.f else Field.towardsCoeff E l.f) with
      | some f => ({ l with f := f }, none)
      | none => (l, some .index)
    else (l, some .value)

/-- `while cond: step`, with at most `n` passes. -/
def loop (cond : Nat → Bool) (step : LState Dat → Res Dat) : Nat → LState Dat → Res Dat
  | 0, l => if cond l.f.layout then (l, some .diverges) else (l, none)
  | n + 1, l =>
    if cond l.f.layout then
      match step l with
      | (l', none) => loop cond step n l'
      | r => r
    else (l, none)

/-- `change_layout`, inherited. field.py L651-662. -/
def changeLayout (E : Env Dat) (l : LState Dat) (k : Nat) : Res Dat :=
  if l.f.layout < k then loop (fun j => decide (j < k)) (towardsGrid E) E.fuel l
  else if l.f.layout > k then loop (fun j => decide (j > k)) (towardsCoeff E) E.fuel l
  else (l, none)

/-- `require_grid_space`, inherited. field.py L674-681. -/
def requireGrid (E : Env Dat) (l : LState Dat) : Option Nat → Res Dat
  | none => loop (fun j => (List.range E.D).any fun a => gridFlag E j a != some true) (towardsGrid E) E.fuel l
  | some a => loop (fun j => gridFlag E j a != some true) (towardsGrid E) E.fuel l

/-- `require_coeff_space`, inherited. field.py L683-690. -/
def requireCoeff (E : Env Dat) (l : LState Dat) : Option Nat → Res Dat
  | none => loop (fun j => (List.range E.D).any fun a => gridFlag E j a == some true) (towardsCoeff E) E.fuel l
  | some a => loop (fun j => gridFlag E j a == some true) (towardsCoeff E) E.fuel l

/-- `require_local`, inherited. field.py L692-700. -/
def requireLocal (E : Env Dat) (l : LState Dat) (a : Nat) : Res Dat :=
  if gridFlag E l.f.layout a = some true then
    loop (fun j => locFlag E j a != some true) (towardsCoeff E) E.fuel l
  else loop (fun j => locFlag E j a != some true) (towardsGrid E) E.fuel l

/-- `__getitem__`, inherited; the last component is what is returned. field.py L578-586. -/
def getItem (E : Env Dat) (l : LState Dat) (k : Key) : Res Dat × Option Dat :=
  let r := match k.2 with
    | none => (l, none)
    | some a => changeScales E l a
  match r with
  | (l, none) =>
    match changeLayout E l k.1 with
    | (l, none) => ((l, none), some l.f.data)
    | r => (r, none)
  | r => (r, none)

/-- `__setitem__`, inherited: it presets scales and layout, which a locked field does not refuse. field.py L588-597. -/
def setItem (E : Env Dat) (l : LState Dat) (k : Key) (d : Dat) : Res Dat :=
  match Field.setItem E l.f k d with
  | some f => ({ l with f := f }, none)
  | none => (l, some .value)

/-- `lock_to_layouts(*layouts)`. field.py L1029-1030. -/
def lockToLayouts (l : LState Dat) (es : List Entry) : LState Dat := { l with allowed := some es }

/-- `lock_axis_to_grid(axis)`. field.py L1032-1033. -/
def lockAxisToGrid (E : Env Dat) (l : LState Dat) (a : Nat) : LState Dat :=
  { l with allowed := some (((List.range E.lays.length).filter fun n => gridFlag E n a == some true).map Entry.layout) }

/-- `unlock`: a new field, here `new`, gets the scales, the layout and a copy of the data. field.py L1035-1040. -/
def unlock (E : Env Dat) (new : FState Dat) (l : LState Dat) : Option (FState Dat) :=
  Field.setItem E (presetScales E new l.f.scales) (l.f.layout, none) l.f.data

/-! ### The operator `Lock` -/

/-- `np.argmin`: the position of the first smallest number, here with that number. operators.py L814. -/
def argmin : List Nat → Option (Nat × Nat)
  | [] => none
  | x :: xs =>
    match argmin xs with
    | none => some (0, x)
    | some (i, y) => if y < x then some (i + 1, y) else some (0, x)

/-- The layout `Lock.enforce_conditions` moves the operand to. operators.py L807-815. Without layouts `argmin` raises. -/
def closest (layouts : List Nat) (cur : Nat) : Option Nat :=
  if cur ∈ layouts then some cur
  else (argmin (layouts.map fun (i : Nat) => Int.natAbs (((i : Nat) : Int) - (cur : Int)))).bind fun r => layouts[r.1]?

/-- `Lock.operate`: the output, a locked field here called `out`, is given the layout, the list of layouts *as one entry*, and
the data. operators.py L817-822. -/
def lockOperate (layouts : List Nat) (arg : FState Dat) (out : LState Dat) : LState Dat :=
  let out := { out with f := presetLayout out.f arg.layout }
  let out := lockToLayouts out [.list layouts]
  { out with f := out.f.setMem out.f.cur arg.data }

/-- Evaluation of `Lock(arg, *layouts)`: the argument, a field, is brought to the dealias scales and the closest layout; the
output is a new locked field at the dealias scales. Returned are the argument and the output. future.py L156-203,
operators.py L787-822. -/
def evalLock (E : Env Dat) (dealias : List ℚ) (layouts : List Nat) (arg new : FState Dat) : Option (FState Dat × LState Dat) := do
  let arg ← Field.changeScales E arg dealias
  let k ← closest layouts arg.layout
  let arg ← Field.changeLayout E arg k
  some (arg, lockOperate layouts arg ⟨presetScales E new dealias, none⟩)

/-! ### Histories -/

/-- What may be asked of a locked field. -/
inductive LOp
  | get (k : Key)
  | changeScales (a : ScaleArg)
  | changeLayout (k : Nat)
  | requireGrid (axis : Option Nat)
  | requireCoeff (axis : Option Nat)
  | requireLocal (axis : Nat)
  | towardsGrid

/-- One request: the result and what a read returned. -/
def perform (E : Env Dat) (l : LState Dat) : LOp → Res Dat × Option Dat
  | .get k => getItem E l k
  | .changeScales a => (changeScales E l a, none)
  | .changeLayout k => (changeLayout E l k, none)
  | .requireGrid a => (requireGrid E l a, none)
  | .requireCoeff a => (requireCoeff E l a, none)
  | .requireLocal a => (requireLocal E l a, none)
  | .towardsGrid => (towardsGrid E l, none)

/-- A sequence of requests, continued after exceptions: the states and results in order. -/
def performAll (E : Env Dat) (l : LState Dat) : List LOp → List (Res Dat × Option Dat)
  | [] => []
  | o :: os => let r := perform E l o; r :: performAll E r.1.1 os

end Dedalus.Locked
