import Verif.Domain.Model
import Mathlib.Data.List.Dedup
import Mathlib.Tactic.Common

/-! # Lemmas on domains -/

namespace Dedalus.Domain

/-- The axes of a basis. -/
def Spec.Covers (b : Basis) (axis : Nat) : Prop := b.axis ≤ axis ∧ axis < b.axis + b.dim

instance (b : Basis) (a : Nat) : Decidable (Spec.Covers b a) := by unfold Spec.Covers; infer_instance

/-- Different bases have no axis in common. -/
def Spec.Disjoint (D : List Basis) : Prop := ∀ b ∈ D, ∀ c ∈ D, ∀ a, Spec.Covers b a → Spec.Covers c a → b = c

open Spec

theorem ordered_aux (l acc : List Basis) (h : acc.Nodup) :
    (l.foldl (fun acc b => if b ∈ acc then acc else acc ++ [b]) acc).Nodup ∧
    ∀ b, b ∈ l.foldl (fun acc b => if b ∈ acc then acc else acc ++ [b]) acc ↔ b ∈ acc ∨ b ∈ l := by
  induction l generalizing acc with
  | nil => simp [h]
  | cons x l ih =>
    rw [List.foldl_cons]
    by_cases e : x ∈ acc
    · rw [if_pos e]
      obtain ⟨h1, h2⟩ := ih acc h
      refine ⟨h1, fun b => ?_⟩
      rw [h2, List.mem_cons]
      constructor
      · tauto
      · rintro (h | rfl | h) <;> tauto
    · rw [if_neg e]
      obtain ⟨h1, h2⟩ := ih (acc ++ [x]) (List.nodup_append.2 ⟨h, by simp, by rintro a ha b hb rfl; simp at hb; exact e (hb ▸ ha)⟩)
      refine ⟨h1, fun b => ?_⟩
      rw [h2]
      simp only [List.mem_append, List.mem_cons, List.not_mem_nil]
      tauto

theorem ordered_nodup (l : List Basis) : (orderedSet l).Nodup := (ordered_aux l [] List.nodup_nil).1

theorem mem_ordered (l : List Basis) (b : Basis) : b ∈ orderedSet l ↔ b ∈ l := by
  have := (ordered_aux l [] List.nodup_nil).2 b
  simpa [orderedSet] using this

theorem dedup_lt {l : List Nat} : l.dedup.length < l.length ↔ ¬ l.Nodup := by
  constructor
  · intro h hn
    rw [List.Nodup.dedup hn] at h
    omega
  · intro h
    rcases lt_or_eq_of_le (List.Sublist.length_le (List.dedup_sublist l)) with h' | h'
    · exact h'
    · exact absurd (List.dedup_eq_self.1 ((List.dedup_sublist l).eq_of_length h')) h

theorem fill_one {α : Type} (f : Basis → Nat → α) (b : Basis) (full : List α) (h : b.axis + b.dim ≤ full.length) :
    ∃ G, (List.range b.dim).foldlM (fun full s => if b.axis + s < full.length then some (full.set (b.axis + s) (f b s)) else none) full = some G ∧
      G.length = full.length ∧ ∀ a, a < full.length → G[a]? = if Covers b a then some (f b (a - b.axis)) else full[a]? := by
  suffices hs : ∀ n, n ≤ b.dim → ∃ G, (List.range n).foldlM (fun full s => if b.axis + s < full.length then some (full.set (b.axis + s) (f b s)) else none) full = some G ∧
      G.length = full.length ∧ ∀ a, a < full.length → G[a]? = if b.axis ≤ a ∧ a < b.axis + n then some (f b (a - b.axis)) else full[a]? from
    hs b.dim le_rfl
  intro n
  induction n with
  | zero =>
    intro _
    exact ⟨full, rfl, rfl, fun a ha => by rw [if_neg (by omega)]⟩
  | succ n ih =>
    intro hn
    obtain ⟨G, e, hl, hG⟩ := ih (by omega)
    refine ⟨G.set (b.axis + n) (f b n), ?_, by simp [hl], fun a ha => ?_⟩
    · rw [List.range_succ, List.foldlM_append, e]
      simp only [Option.bind_eq_bind, Option.bind_some, List.foldlM_cons, List.foldlM_nil]
      rw [if_pos (by omega)]
      rfl
    · by_cases ea : b.axis + n = a
      · subst ea
        rw [List.getElem?_set_self (by omega), if_pos (by omega)]
        congr 2
        omega
      · rw [List.getElem?_set_ne ea, hG a ha]
        by_cases c : b.axis ≤ a ∧ a < b.axis + n
        · rw [if_pos c, if_pos (by omega)]
        · rw [if_neg c, if_neg (by omega)]

/-- The value along every axis is that of the last basis that has the axis. -/
theorem perAxis_last {α : Type} (dim : Nat) (default : α) (f : Basis → Nat → α) (D : List Basis) (h : ∀ b ∈ D, b.axis + b.dim ≤ dim) :
    ∃ F, perAxis dim default f D = some F ∧ F.length = dim ∧ ∀ a < dim, F[a]? = some (match D.reverse.find? fun b => decide (Covers b a) with
      | some b => f b (a - b.axis)
      | none => default) := by
  suffices hs : ∀ (full : List α), full.length = dim → ∃ F, D.foldlM (fun full b => (List.range b.dim).foldlM (fun full s => if b.axis + s < full.length then
      some (full.set (b.axis + s) (f b s)) else none) full) full = some F ∧ F.length = dim ∧ ∀ a < dim, F[a]? = (match D.reverse.find? fun b => decide (Covers b a) with
      | some b => some (f b (a - b.axis))
      | none => full[a]?) by
    obtain ⟨F, e, hl, hF⟩ := hs (List.replicate dim default) (by simp)
    refine ⟨F, e, hl, fun a ha => ?_⟩
    rw [hF a ha]
    cases D.reverse.find? fun b => decide (Covers b a) with
    | some b => rfl
    | none => simp [ha]
  induction D with
  | nil => intro full hl; exact ⟨full, rfl, hl, fun a _ => rfl⟩
  | cons b D ih =>
    intro full hl
    obtain ⟨G, e, hG, hv⟩ := fill_one f b full (by rw [hl]; exact h b (by simp))
    obtain ⟨F, e', hF, hv'⟩ := ih (fun c hc => h c (by simp [hc])) G (by omega)
    refine ⟨F, ?_, hF, fun a ha => ?_⟩
    · rw [List.foldlM_cons, e]; exact e'
    · rw [hv' a ha, List.reverse_cons, List.find?_append]
      cases D.reverse.find? fun b => decide (Covers b a) with
      | some c => rfl
      | none =>
        simp only [Option.none_or, List.find?_singleton]
        rw [hv a (by omega)]
        by_cases c : Covers b a
        · simp [c]
        · simp [c]

theorem find_disjoint {D : List Basis} (hd : Disjoint D) {b : Basis} (hb : b ∈ D) {a : Nat} (ha : Covers b a) :
    D.find? (fun b => decide (Covers b a)) = some b ∧ D.reverse.find? (fun b => decide (Covers b a)) = some b := by
  have h : ∀ l : List Basis, (∀ c, c ∈ l ↔ c ∈ D) → l.find? (fun b => decide (Covers b a)) = some b := by
    intro l hl
    cases e : l.find? (fun b => decide (Covers b a)) with
    | none => exact absurd ha (by simpa using List.find?_eq_none.1 e b ((hl b).2 hb))
    | some c => rw [hd c ((hl c).1 (List.mem_of_find?_eq_some e)) b hb a (by simpa using List.find?_some e) ha]
  exact ⟨h D fun _ => Iff.rfl, h _ fun _ => List.mem_reverse⟩

theorem assign_keys {t : List (Nat × Option Basis)} {k : Nat} (h : k ∈ t.map Prod.fst) (v : Option Basis) : (assign t k v).map Prod.fst = t.map Prod.fst := by
  unfold assign
  rw [if_pos h, List.map_map]
  refine List.map_congr_left fun p _ => ?_
  by_cases e : p.1 = k
  · simp [e]
  · simp [e]

theorem mem_assign_keys (t : List (Nat × Option Basis)) (k : Nat) (v : Option Basis) (j : Nat) : j ∈ (assign t k v).map Prod.fst ↔ j ∈ t.map Prod.fst ∨ j = k := by
  by_cases h : k ∈ t.map Prod.fst
  · rw [assign_keys h]
    constructor
    · tauto
    · rintro (h' | rfl) <;> assumption
  · unfold assign
    rw [if_neg h]
    simp only [List.map_append, List.map_cons, List.map_nil, List.mem_append, List.mem_singleton]

theorem assign_nodup {t : List (Nat × Option Basis)} (h : (t.map Prod.fst).Nodup) (k : Nat) (v : Option Basis) : ((assign t k v).map Prod.fst).Nodup := by
  by_cases hk : k ∈ t.map Prod.fst
  · rwa [assign_keys hk]
  · unfold assign
    rw [if_neg hk, List.map_append, List.nodup_append]
    refine ⟨h, by simp, ?_⟩
    rintro a ha b hb rfl
    simp at hb
    exact hk (hb ▸ ha)

theorem lookup_assign (t : List (Nat × Option Basis)) (k : Nat) (v : Option Basis) (j : Nat) : lookup (assign t k v) j = if j = k then some v else lookup t j := by
  unfold lookup assign
  by_cases hk : k ∈ t.map Prod.fst
  · rw [if_pos hk]
    induction t with
    | nil => simp at hk
    | cons p t ih =>
      by_cases e : p.1 = k
      · by_cases ej : j = k
        · subst ej; simp [e]
        · have e' : p.1 ≠ j := fun c => ej (c.symm.trans e)
          by_cases hk' : k ∈ t.map Prod.fst
          · have := ih hk'
            simp only [List.map_cons, if_pos e, List.find?_cons]
            rw [show ((k == j) = false) from by simpa using fun c => ej c.symm, show ((p.1 == j) = false) from by simpa using e']
            simpa [ej] using this
          · have hm : (t.map fun p => if p.1 = k then (k, v) else p) = t := by
              conv_rhs => rw [← List.map_id t]
              refine List.map_congr_left fun q hq => ?_
              rw [if_neg]
              · rfl
              · intro c; exact hk' (by rw [← c]; exact List.mem_map_of_mem hq)
            simp only [List.map_cons, if_pos e, List.find?_cons, hm]
            rw [show ((k == j) = false) from by simpa using fun c => ej c.symm, show ((p.1 == j) = false) from by simpa using e', if_neg ej]
      · have hk' : k ∈ t.map Prod.fst := by
          rw [List.map_cons, List.mem_cons] at hk
          exact hk.resolve_left fun c => e c.symm
        have := ih hk'
        simp only [List.map_cons, if_neg e, List.find?_cons]
        by_cases ej : p.1 = j
        · have : j ≠ k := fun c => e (ej.trans c)
          simp [ej, this]
        · rw [show ((p.1 == j) = false) from by simpa using ej]
          exact this
  · rw [if_neg hk, List.find?_append]
    by_cases ej : j = k
    · subst ej
      have : t.find? (fun p => p.1 == j) = none := by
        rw [List.find?_eq_none]
        intro p hp c
        exact hk (by rw [← (by simpa using c : p.1 = j)]; exact List.mem_map_of_mem hp)
      simp [this]
    · have : ([(k, v)] : List (Nat × Option Basis)).find? (fun p => p.1 == j) = none := by
        simp [Ne.symm ej]
      rw [this, Option.or_none, if_neg ej]

/-- The basis with the given coordinates. -/
def Spec.at (D : List Basis) (k : Nat) : Option Basis := D.find? fun b => b.key == k

/-- Combination of two bases: None is neutral. -/
def Spec.combine (op : Basis → Basis → Option Basis) : Option Basis → Option Basis → Option (Option Basis)
  | none, none => some none
  | some b, none => some (some b)
  | none, some c => some (some c)
  | some b, some c => (op b c).map some

theorem base_table (keys : List Nat) (t : List (Nat × Option Basis)) (hn : (t.map Prod.fst).Nodup) (ht : ∀ j, j ∈ t.map Prod.fst → lookup t j = some none) :
    ((keys.foldl (fun t k => assign t k none) t).map Prod.fst).Nodup ∧
    (∀ j, j ∈ (keys.foldl (fun t k => assign t k none) t).map Prod.fst ↔ j ∈ t.map Prod.fst ∨ j ∈ keys) ∧
    ∀ j, j ∈ (keys.foldl (fun t k => assign t k none) t).map Prod.fst → lookup (keys.foldl (fun t k => assign t k none) t) j = some none := by
  induction keys generalizing t with
  | nil => exact ⟨hn, fun j => by simp, ht⟩
  | cons k keys ih =>
    obtain ⟨h1, h2, h3⟩ := ih (assign t k none) (assign_nodup hn k none) fun j hj => by
      rw [lookup_assign]
      split_ifs with e
      · rfl
      · exact ht j (((mem_assign_keys t k none j).1 hj).resolve_right e)
    refine ⟨h1, fun j => ?_, h3⟩
    rw [List.foldl_cons, h2, mem_assign_keys, List.mem_cons]
    tauto

theorem fill_table (D : List Basis) (t : List (Nat × Option Basis)) (hD : ∀ b ∈ D, b.key ∈ t.map Prod.fst) (hn : (D.map Basis.key).Nodup) :
    (D.foldl (fun t b => assign t b.key (some b)) t).map Prod.fst = t.map Prod.fst ∧
    ∀ j, lookup (D.foldl (fun t b => assign t b.key (some b)) t) j = match Spec.at D j with
      | some b => some (some b)
      | none => lookup t j := by
  induction D generalizing t with
  | nil => exact ⟨rfl, fun j => rfl⟩
  | cons b D ih =>
    rw [List.map_cons, List.nodup_cons] at hn
    have hk := assign_keys (hD b (by simp)) (some b)
    obtain ⟨h1, h2⟩ := ih (assign t b.key (some b)) (fun c hc => by rw [hk]; exact hD c (by simp [hc])) hn.2
    refine ⟨h1.trans hk, fun j => ?_⟩
    rw [List.foldl_cons, h2, lookup_assign]
    unfold Spec.at
    rw [List.find?_cons]
    by_cases e : b.key = j
    · have : D.find? (fun b => b.key == j) = none := by
        rw [List.find?_eq_none]
        intro c hc e'
        exact hn.1 (by rw [e, ← (by simpa using e' : c.key = j)]; exact List.mem_map_of_mem hc)
      simp [this, e]
    · rw [show ((b.key == j) = false) from by simpa using e]
      cases D.find? (fun b => b.key == j) with
      | some c => rfl
      | none => simp [Ne.symm e]

theorem table_eq {t : List (Nat × Option Basis)} (hn : (t.map Prod.fst).Nodup) : t = (t.map Prod.fst).map fun k => (k, (lookup t k).join) := by
  induction t with
  | nil => rfl
  | cons p t ih =>
    rw [List.map_cons, List.nodup_cons] at hn
    have e : ∀ k ∈ t.map Prod.fst, lookup (p :: t) k = lookup t k := by
      intro k hk
      unfold lookup
      rw [List.find?_cons, show ((p.1 == k) = false) from by simp; rintro rfl; exact hn.1 hk]
    rw [List.map_cons, List.map_cons]
    congr 1
    · simp [lookup]
    · conv_lhs => rw [ih hn.2]
      refine List.map_congr_left fun k hk => ?_
      rw [e k hk]

/-- The table of a domain whose bases belong to the systems of the distributor. -/
theorem byCoord_regular (keys : List Nat) (D : List Basis) (hD : ∀ b ∈ D, b.key ∈ keys) (hn : (D.map Basis.key).Nodup) :
    byCoord keys D = ((keys.foldl (fun t k => assign t k none) []).map Prod.fst).map (fun k => (k, Spec.at D k)) ∧
    ∀ k ∈ keys, lookup (byCoord keys D) k = some (Spec.at D k) := by
  obtain ⟨b1, b2, b3⟩ := base_table keys [] (by simp) (by simp)
  have hm : ∀ k ∈ keys, k ∈ (keys.foldl (fun t k => assign t k none) []).map Prod.fst := fun k hk => (b2 k).2 (Or.inr hk)
  obtain ⟨f1, f2⟩ := fill_table D (keys.foldl (fun t k => assign t k none) []) (fun b hb => hm _ (hD b hb)) hn
  have hl : ∀ k ∈ (keys.foldl (fun t k => assign t k none) []).map Prod.fst, lookup (byCoord keys D) k = some (Spec.at D k) := by
    intro k hk
    unfold byCoord
    rw [f2 k]
    cases e : Spec.at D k with
    | some b => rfl
    | none => exact b3 k hk
  refine ⟨?_, fun k hk => hl k (hm k hk)⟩
  have ht := table_eq (t := byCoord keys D) (by unfold byCoord; rw [f1]; exact b1)
  rw [show (byCoord keys D).map Prod.fst = (keys.foldl (fun t k => assign t k none) []).map Prod.fst from f1] at ht
  rw [ht]
  refine List.map_congr_left fun k hk => ?_
  rw [hl k hk]
  rfl

end Dedalus.Domain
