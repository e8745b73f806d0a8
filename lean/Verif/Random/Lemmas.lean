import Verif.Random.Spec
import Verif.Global.Props

namespace Dedalus.Random
open Dedalus.Global Dedalus.Dist
variable {σ α : Type}

theorem stateAt_add (g : Gen σ α) (s : σ) (m n : Nat) : stateAt g s (m + n) = stateAt g (stateAt g s m) n := by
  induction n with
  | zero => rfl
  | succ n ih => rw [← Nat.add_assoc, stateAt, ih, stateAt]

theorem drawN_spec (g : Gen σ α) : ∀ n s, (drawN g n s).2 = stateAt g s n ∧
    (drawN g n s).1 = (List.range n).map fun k => (g.draw (stateAt g s k)).1 := by
  intro n
  induction n with
  | zero => intro s; simp [drawN, stateAt]
  | succ n ih =>
    intro s
    obtain ⟨h1, h2⟩ := ih (g.draw s).2
    simp only [drawN]
    rw [h1, h2]
    constructor
    · rw [Nat.add_comm, stateAt_add]; rfl
    · rw [List.range_succ_eq_map, List.map_cons, List.map_map]
      congr 1
      apply List.map_congr_left
      intro k _
      simp only [Function.comp, Nat.succ_eq_add_one]
      rw [Nat.add_comm k 1, stateAt_add]; rfl

theorem drawN_get (g : Gen σ α) (n k : Nat) (s : σ) (h : k < n) : (drawN g n s).1[k]? = some (g.draw (stateAt g s k)).1 := by
  rw [(drawN_spec g n s).2]; simp [h]

theorem chunkAt_get (g : Gen σ α) (c : Nat) : ∀ (q r : Nat) (s : σ), r < c →
    (chunkAt g c q s)[r]? = some (g.draw (stateAt g s (c * q + r))).1 := by
  intro q
  induction q with
  | zero => intro r s h; simp [chunkAt, drawN_get g c r s h]
  | succ q ih =>
    intro r s h
    rw [chunkAt, ih r _ h, (drawN_spec g c s).1, ← stateAt_add, Nat.mul_succ]
    congr 4; omega

theorem assignChunk_spec (chunk c : Nat) (hc : 0 < c) (data : List α) (f : Nat → α)
    (hd : ∀ r, r < c → data[r]? = some (f (c * chunk + r))) : ∀ (is : List Nat) (v : Nat → α),
    assignChunk chunk c data is (is.map v) = some (is.map fun i => if i / c = chunk then f i else v i) := by
  intro is
  induction is with
  | nil => intro v; rfl
  | cons i is ih =>
    intro v
    rw [List.map_cons, assignChunk, ih v]
    simp only [Option.bind_eq_bind, Option.bind_some, List.map_cons]
    by_cases h : chunk = i / c
    · rw [if_pos h, if_pos h.symm, hd _ (Nat.mod_lt _ hc), h, Nat.div_add_mod]; rfl
    · rw [if_neg h, if_neg (Ne.symm h)]

theorem chunkLoop_spec (g : Gen σ α) (c : Nat) (hc : 0 < c) (s0 : σ) (is : List Nat) : ∀ (todo chunk : Nat) (v : Nat → α),
    chunkLoop g c is todo chunk (stateAt g s0 (c * chunk)) (is.map v) =
      some (is.map fun i => if chunk ≤ i / c ∧ i / c ≤ chunk + todo then (g.draw (stateAt g s0 i)).1 else v i) := by
  intro todo
  induction todo with
  | zero =>
    intro chunk v
    rw [chunkLoop]
    simp only [Option.bind_eq_bind]
    rw [assignChunk_spec chunk c hc _ (fun i => (g.draw (stateAt g s0 i)).1)
      (by intro r hr; rw [drawN_get g c r _ hr, ← stateAt_add])]
    simp only [Option.bind_some, Nat.add_zero, Option.some.injEq]
    apply List.map_congr_left
    intro i _
    by_cases h : i / c = chunk
    · rw [if_pos h, if_pos (by omega)]
    · rw [if_neg h, if_neg (by omega)]
  | succ todo ih =>
    intro chunk v
    rw [chunkLoop]
    simp only [Option.bind_eq_bind]
    rw [assignChunk_spec chunk c hc _ (fun i => (g.draw (stateAt g s0 i)).1)
      (by intro r hr; rw [drawN_get g c r _ hr, ← stateAt_add])]
    simp only [Option.bind_some]
    rw [(drawN_spec g c _).1, ← stateAt_add, ← Nat.mul_succ, ih]
    simp only [Option.some.injEq]
    apply List.map_congr_left
    intro i _
    by_cases h1 : i / c = chunk
    · rw [if_neg (by omega), if_pos h1, if_pos (by omega)]
    · by_cases h2 : chunk + 1 ≤ i / c ∧ i / c ≤ chunk + 1 + todo
      · rw [if_pos h2, if_pos (by omega)]
      · rw [if_neg h2, if_neg h1, if_neg (by omega)]

theorem le_foldl_max : ∀ (is : List Nat) (i : Nat), i ≤ is.foldl max i ∧ ∀ x ∈ is, x ≤ is.foldl max i := by
  intro is
  induction is with
  | nil => intro i; simp
  | cons j is ih =>
    intro i
    simp only [List.foldl_cons]
    obtain ⟨h1, h2⟩ := ih (max i j)
    refine ⟨by omega, ?_⟩
    intro x hx
    rcases List.mem_cons.1 hx with rfl | hx
    · omega
    · exact h2 x hx

theorem ravel_eq_position : ∀ sh idx, ravel sh idx = position sh idx := by
  intro sh
  induction sh with
  | nil => intro idx; rfl
  | cons n ns ih =>
    intro idx
    cases idx with
    | nil => rfl
    | cons i is =>
      simp only [ravel, position, ih]
      rw [List.prod_eq_foldl]

theorem coordsList_getElem : ∀ (sh idx : List Nat), List.Forall₂ (· < ·) idx sh → (coordsList sh)[ravel sh idx]? = some idx := by
  intro sh
  induction sh with
  | nil => intro idx h; cases h; rfl
  | cons n ns ih =>
    intro idx h
    cases h with
    | cons h1 h2 =>
      rename_i i is
      have hlen := coordsList_length ns
      simp only [coordsList, ravel, ← hlen]
      have hr : List.range n = List.range i ++ (i :: List.range' (i+1) (n-i-1)) := by
        rw [List.range_eq_range', List.range_eq_range']
        have : n = i + ((n - i - 1) + 1) := by omega
        conv_lhs => rw [this]
        rw [← List.range'_append_1, List.range'_succ]; simp
      have hrl : ravel ns is < (coordsList ns).length := by
        have := ih is h2
        rw [List.getElem?_eq_some_iff] at this
        exact this.1
      rw [hr, List.flatMap_append, List.getElem?_append_right (by simp [List.length_flatMap]), List.flatMap_cons]
      have : i * (coordsList ns).length + ravel ns is -
          (List.flatMap (fun c => List.map (c :: ·) (coordsList ns)) (List.range i)).length = ravel ns is := by
        simp [List.length_flatMap]
      rw [this, List.getElem?_append_left (by simpa using hrl), List.getElem?_map, ih is h2]; rfl

end Dedalus.Random
