import Verif.Restart.Model
import Verif.Output.Spec

/-!
# Specification vocabulary for restarts (C105)
-/

namespace Dedalus.Restart

open Dedalus.Global Dedalus.Output

variable {α T : Type}

/-- A legal field on the mesh of the new run: its coefficient layout is a legal distribution, and so is its grid layout for every grid of positive
sizes, with axes of one point where the field has no resolution. -/
structure FieldOK (mesh : List Nat) (f : FieldInfo) : Prop where
  coeff : f.coeff.OK
  mesh : f.coeff.mesh = mesh
  sizes : f.sizes.length = f.coeff.shape.length
  pos : ∀ n ∈ f.sizes, 0 < n
  loc : f.gridLoc.length = f.coeff.loc.length
  count : f.gridLoc.count false = f.coeff.loc.count false
  chunks : f.gridChunks = f.sizes.map fun _ => 1

/-- A saved array of shape `shape` in the layout given by `gridSpace` fits the field: its components are those of the field; in coefficient space its sizes are those of the field; on
the grid it has a positive number of points along each axis, one where the field has one. -/
structure Fits (f : FieldInfo) (gridSpace : List Bool) (shape : List Nat) : Prop where
  layout : gridSpace ≠ []
  kind : ((∀ b ∈ gridSpace, b = false) ∧ shape = f.coeff.comps ++ f.coeff.shape) ∨
    ((∀ b ∈ gridSpace, b = true) ∧ ∃ grid, shape = f.coeff.comps ++ grid ∧ List.Forall₂ (fun m n => 0 < m ∧ (n = 1 → m = 1)) grid f.sizes)

/-- The data of a field on one process are its part of the saved global array `G`, in the layout of the array: coefficients, or values on the grid
of the array. -/
def Restored (f : FieldInfo) (gridSpace : List Bool) (G : NDArr α) (coords : List Nat) : Data α → Prop
  | .coeff a => (∀ b ∈ gridSpace, b = false) ∧ Holds f.coeff G coords a
  | .grid scales a => (∀ b ∈ gridSpace, b = true) ∧ Holds (f.grid id scales) G coords a ∧
      f.coeff.comps ++ (f.grid id scales).shape = G.shape

/-- From the files `files` every output of the handler can be restored: for each output `w`, the file at its place, a solver on any mesh with any fields
that were saved (or, if missing fields are allowed, were not) and on each of its processes, loading that write (counted from the start or from the end of the file) succeeds, returns its write number
and timestep, sets the clock to that of the output and gives each saved field its part of the array that was saved under its name, whatever the
solver held before; fields that were not saved keep their data. -/
def Restores {B : Type} (read : B → Nat → Option (List (NDArr α))) (tasks : List Task) (gridSpace : Nat → List Bool) (max : Option Nat) (s0 : Nat)
    (ws : List (Write α (Record T) × (Nat → NDArr α))) (files : Nat → Option (H5 (Record T) B)) : Prop :=
  ∀ (w : Nat) (x : Write α (Record T) × (Nat → NDArr α)), ws[w]? = some x → ∃ file, files (s0 + (place max w).1) = some file ∧
    ∀ (mesh : List Nat) (s : Solver α T) (allowMissing : Bool),
      (∀ y ∈ s.fields, (FieldOK mesh y.1 ∧ ∃ t ∈ tasks, t.name = y.1.name ∧ Fits y.1 (gridSpace t.name) (t.d.comps ++ t.d.shape)) ∨
        (allowMissing = true ∧ y.1.name ∉ tasks.map Task.name)) →
      ∀ (coords : List Nat), List.Forall₂ (· < ·) coords mesh → ∀ (index : Int),
      (index = (place max w).2 ∨ index = (place max w).2 - (file.scales.length : Int)) →
      ∃ fields, loadState id coords (view read tasks gridSpace file) index allowMissing s =
          (⟨x.1.record.iteration, x.1.record.iteration, x.1.record.simTime, x.1.record.simTime, fields⟩,
            .ok (x.1.record.writeNumber, x.1.record.timestep)) ∧
        List.Forall₂ (fun y z => z.1 = y.1 ∧ if y.1.name ∈ tasks.map Task.name then Restored y.1 (gridSpace y.1.name) (x.2 y.1.name) coords z.2 else z = y)
          s.fields fields

end Dedalus.Restart
