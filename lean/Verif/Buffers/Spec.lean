import Verif.Buffers.Model

/-!
What a field needs, and which worlds and histories are meant.
-/

namespace Dedalus.Buffers

open Dedalus.Dist

/-- One size, chunk and flag for every one of the `D` axes, in every layout; as
many distributed axes as the mesh has dimensions. -/
structure Ok (D : Nat) (W : World) : Prop where
  sizes : W.sizes.length = D
  chunks : W.chunks.length = D
  constant : W.constant.length = D
  dealias : W.dealias.length = D
  coords : W.coords.length = W.mesh.length
  lays : ∀ l ∈ W.lays, l.loc.length = D ∧ l.grid.length = D ∧ l.loc.count false = W.mesh.length
  some_layout : W.lays ≠ []

/-- Scales for every axis; a layout that exists. -/
def Legal (D : Nat) (W : World) : Op → Prop
  | .scales s => s.length = D
  | .layout i => i < W.lays.length

/-- The bytes of the components of a field in a layout. -/
def Needs (W : World) (scales : List ℚ) (i n : Nat) : Prop :=
  ∃ l shape, W.lays[i]? = some l ∧ localShape W l scales = .ok shape ∧ n = W.ncomp * (shape.prod * W.itemsize)

/-- Scales on no axis above those of the dealiased grid. -/
def Below (s d : List ℚ) : Prop := List.Forall₂ (· ≤ ·) s d

end Dedalus.Buffers
