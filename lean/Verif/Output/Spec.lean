import Verif.Output.Model
import Verif.Global.Spec

/-!
# Specification vocabulary for HDF5 output (C87)
-/

namespace Dedalus.Output

open Dedalus.Global

variable {α R : Type}

/-- Tasks of one handler: their names are different and they live on the same process mesh; the arrays are not empty. -/
structure TasksOK (mesh : List Nat) (tasks : List Task) : Prop where
  names : (tasks.map Task.name).Nodup
  ok : ∀ t ∈ tasks, t.d.OK
  mesh : ∀ t ∈ tasks, t.d.mesh = mesh
  nonempty : ∀ t ∈ tasks, 0 ∉ t.d.comps ∧ 0 ∉ t.d.shape

/-- At this output the processes together hold the arrays `G`, one for each task. -/
def Faithful (tasks : List Task) (w : Write α R) (G : Nat → NDArr α) : Prop :=
  ∀ t ∈ tasks, (G t.name).shape = t.d.comps ++ t.d.shape ∧
    ∀ coords, List.Forall₂ (· < ·) coords t.d.mesh → Holds t.d (G t.name) coords (w.fields t.name coords)

/-- Where output number `w` goes: how many sets after the first, and which entry. -/
def place : Option Nat → Nat → Nat × Nat
  | none, w => (0, w)
  | some M, w => (w / M, w % M)

/-- The files hold the outputs `ws` and nothing else: output `w` is at its place, with its time scales and, for each task, the global array at
that output; every entry of a file is one of the outputs, all tasks have as many entries as the time scales, no file is without entries; and
the files of sets before `s0` are unchanged. -/
structure Recorded {B : Type} (read : B → Nat → Option (List (NDArr α))) (tasks : List Task) (max : Option Nat) (s0 : Nat)
    (ws : List (Write α R × (Nat → NDArr α))) (before after : Nat → Option (H5 R B)) : Prop where
  written : ∀ (w : Nat) x, ws[w]? = some x → ∃ f, after (s0 + (place max w).1) = some f ∧ f.scales[(place max w).2]? = some x.1.record ∧
    ∀ t ∈ tasks, ∃ es e, read f.body t.name = some es ∧ es[(place max w).2]? = some e ∧ Same e (x.2 t.name)
  only : ∀ k f, after (s0 + k) = some f → 0 < f.scales.length ∧ (∀ i < f.scales.length, ∃ w < ws.length, place max w = (k, i)) ∧
    ∀ t ∈ tasks, ∃ es, read f.body t.name = some es ∧ es.length = f.scales.length
  earlier : ∀ s < s0, after s = before s

/-- A chunk list covers a dataset: every element of every write is in one of the chunks. -/
def Covers (chunks : List ((Nat × Nat) × Part)) (writes : Nat) (shape : List Nat) : Prop :=
  ∀ w < writes, ∀ idx, List.Forall₂ (· < ·) idx shape → ∃ c ∈ chunks, c.1.1 ≤ w ∧ w < c.1.2 ∧
    List.Forall₂ (fun i (r : Nat × Nat) => r.1 ≤ i ∧ i < r.1 + r.2) idx (List.zip c.2.start c.2.count) ∧ c.2.start.length = c.2.count.length

/-- A dataset has the entries of another one. -/
def Equal (a b : Dset α) : Prop := a.shape = b.shape ∧ List.Forall₂ Same a.entries b.entries

end Dedalus.Output
