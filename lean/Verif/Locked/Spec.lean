import Verif.Locked.Model
import Verif.Field.Spec

/-!
# Specification vocabulary for locked fields (C109)
-/

namespace Dedalus.Locked

open Dedalus.Dist Dedalus.Field

variable {Dat V : Type}

/-- The layout `n` is among those the field is locked to. -/
def Permits (l : LState Dat) (n : Nat) : Prop := ∃ es, l.allowed = some es ∧ Entry.layout n ∈ es

/-- A locked field at rest: the value `v`, in a layout it is locked to. -/
structure Rests (E : Env Dat) (rep : V → Nat → List ℚ → Dat) (v : V) (l : LState Dat) : Prop where
  holds : Holds E rep v l.f
  permitted : Permits l l.f.layout

/-- Nothing but the layout and the content of the buffer has changed. -/
structure SameLock (l l' : LState Dat) : Prop where
  scales : l'.f.scales = l.f.scales
  buffer : l'.f.cur = l.f.cur
  allowed : l'.allowed = l.allowed

/-- `j` lies on the way from `i` to `k`: `i` excluded, `k` included. -/
def OnTheWay (i k j : Nat) : Prop := (i < j ∧ j ≤ k) ∨ (k ≤ j ∧ j < i)

/-- Distance of layouts along the chain. -/
def dist (i j : Nat) : Nat := Int.natAbs ((i : Int) - (j : Int))

end Dedalus.Locked
