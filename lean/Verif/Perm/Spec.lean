import Verif.Perm.Model

/-!
# Specification for C17
-/

namespace Dedalus.Perm

/-- A row (or column): mode `mode` of component `comp` of equation (or variable) number `block`, which
has dimension `dim`. -/
structure Row where
  dim : Nat
  block : Nat
  comp : Nat
  mode : Nat
deriving DecidableEq, Repr

/-- All rows in input order: equations, then components, then modes. `k` is the number of the first. -/
def inputRows (k : Nat) : List Block → List Row
  | [] => []
  | b :: bs => ((List.range b.comps).flatMap fun c => (List.range b.modes).map fun m => ⟨b.dim, k, c, m⟩) ++
      inputRows (k + 1) bs

/-- Output order: by dimension (lower dimensions first iff `first`), then by mode, then by component and
block (`interleave`) or block and component. -/
def before (first interleave : Bool) (x y : Row) : Prop :=
  (if first then x.dim < y.dim else y.dim < x.dim) ∨ (x.dim = y.dim ∧ (x.mode < y.mode ∨ (x.mode = y.mode ∧
    if interleave then x.comp < y.comp ∨ (x.comp = y.comp ∧ x.block < y.block)
    else x.block < y.block ∨ (x.block = y.block ∧ x.comp < y.comp))))

end Dedalus.Perm
