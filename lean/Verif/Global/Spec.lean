import Verif.Global.Model

/-!
# Specification vocabulary for global data (C08)
-/

namespace Dedalus.Global

variable {α : Type}

/-- A proper array: an element for exactly the indices inside the shape. -/
def NDArr.WF (a : NDArr α) : Prop := ∀ idx, (a.get idx).isSome = true ↔ List.Forall₂ (· < ·) idx a.shape

/-- Two arrays are the same: same shape and same elements. -/
def Same (a b : NDArr α) : Prop := a.shape = b.shape ∧ ∀ idx, List.Forall₂ (· < ·) idx a.shape → a.get idx = b.get idx

/-- A legal distribution: one flag, size and chunk size per axis, chunks divide the sizes, and one mesh size
(above one) per distributed axis. -/
structure Distn.OK (d : Distn) : Prop where
  constant : d.constant.length = d.loc.length
  shape : d.shape.length = d.loc.length
  chunks : List.Forall₂ (fun c n => 0 < c ∧ c ∣ n) d.chunks d.shape
  mesh : d.mesh.length = d.loc.count false
  pos : ∀ m ∈ d.mesh, 0 < m

/-- The local data of a process are the part of the global array that the process owns: at each local
position the element of the global array at the corresponding owned index (`ps` lists, axis by axis, a
local position and the global index the process owns there). -/
def Holds (d : Distn) (G : NDArr α) (coords : List Nat) (a : NDArr α) : Prop :=
  ∃ els, d.els coords = some els ∧ a.shape = d.comps ++ els.map List.length ∧
    ∀ t ps, List.Forall₂ (· < ·) t d.comps → List.Forall₂ (fun e (p : Nat × Nat) => e[p.1]? = some p.2) els ps →
      a.get (t ++ ps.map Prod.fst) = G.get (t ++ ps.map Prod.snd)

end Dedalus.Global
