import Verif.Transpose.Model
import Verif.Dist.BlockLemmas

namespace Dedalus.Transpose
open Dedalus.Dist

/-- A family of consecutive blocks covering `0..N`. -/
structure Consec (s e : Nat → Nat) (N P : Nat) : Prop where
  zero : s 0 = 0
  next : ∀ k, e k = s (k + 1)
  mono : ∀ k, s k ≤ s (k + 1)
  top : s P = N

theorem consec_block (N P : Nat) (hP : 0 < P) :
    Consec (fun r => min (ceilDiv N P * r) N) (fun r => min (ceilDiv N P * (r + 1)) N) N P where
  zero := by simp
  next := fun _ => rfl
  mono := fun k => min_le_min (Nat.mul_le_mul_left _ (by omega)) (le_refl _)
  top := Nat.min_eq_right (ceilDiv_mul hP)

theorem nest_length (l0 l1 l2 l3 : List Nat) :
    (nest l0 l1 l2 l3).length = l0.length * (l1.length * (l2.length * l3.length)) := by
  simp [nest, List.length_flatMap, List.map_const']

theorem mem_nest {l0 l1 l2 l3 : List Nat} {a b c d : Nat} :
    (a, b, c, d) ∈ nest l0 l1 l2 l3 ↔ a ∈ l0 ∧ b ∈ l1 ∧ c ∈ l2 ∧ d ∈ l3 := by
  simp only [nest, List.mem_flatMap, List.mem_map, Prod.mk.injEq]
  constructor
  · rintro ⟨_, h0, _, h1, _, h2, _, h3, rfl, rfl, rfl, rfl⟩
    exact ⟨h0, h1, h2, h3⟩
  · rintro ⟨h0, h1, h2, h3⟩
    exact ⟨a, h0, b, h1, c, h2, d, h3, rfl, rfl, rfl, rfl⟩

theorem nest_map (l0 l1 l2 l3 : List Nat) (f g : Nat → Nat) :
    nest l0 (l1.map f) (l2.map g) l3 =
      (nest l0 l1 l2 l3).map (fun t => (t.1, f t.2.1, g t.2.2.1, t.2.2.2)) := by
  simp [nest, List.map_flatMap, List.flatMap_map, Function.comp_def]

theorem rng_eq (a b : Nat) : rng a b = (List.range (b - a)).map (a + ·) := by
  rw [rng, List.range_eq_range', List.map_add_range']; simp

theorem combine_map {α : Type} (order : List Idx) (V : Idx → α) (rest : List α) (A : Arr α) :
    ∃ A', combine order (order.map V ++ rest) A = some A' ∧
      ∀ t, A' t = if t ∈ order then V t else A t := by
  induction order generalizing A with
  | nil => exact ⟨A, by simp [combine], by simp⟩
  | cons t ts ih =>
    obtain ⟨A', h, h'⟩ := ih (Function.update A t (V t))
    refine ⟨A', by simpa [combine] using h, ?_⟩
    intro u
    rw [h']
    by_cases hu : u ∈ ts
    · simp [hu]
    · by_cases hut : u = t
      · subst hut; simp [hu]
      · simp [hu, hut]

theorem readSeg_mid {α : Type} (a b c : List α) (off n : Nat) (ho : off = a.length) (hn : n = b.length) :
    readSeg (a ++ b ++ c) off n = some b := by
  subst ho; subst hn
  unfold readSeg
  rw [if_pos (by simp)]
  simp [List.append_assoc]

theorem range_split {P q : Nat} (h : q < P) :
    List.range P = List.range q ++ q :: List.range' (q+1) (P - (q+1)) := by
  rw [List.range_eq_range', List.range_eq_range']
  have : P = q + (1 + (P - (q+1))) := by omega
  conv_lhs => rw [this]
  rw [← List.range'_append_1, ← List.range'_append_1]
  simp

theorem readSeg_flatMap {α : Type} (blk : Nat → List α) (P q off n : Nat) (hq : q < P)
    (ho : off = ((List.range q).map (fun k => (blk k).length)).sum) (hn : n = (blk q).length) :
    readSeg ((List.range P).flatMap blk) off n = some (blk q) := by
  rw [range_split hq, List.flatMap_append, List.flatMap_cons, ← List.append_assoc]
  apply readSeg_mid
  · rw [ho, List.length_flatMap]
  · exact hn

theorem recvLoop_spec {α : Type} (send : Nat → List α) (sc sd rc rd : Nat → Nat → Nat) (q : Nat)
    (seg : Nat → List α) (P : Nat)
    (h1 : ∀ p, p < P → sc p q = rc q p)
    (h2 : ∀ p, p < P → readSeg (send p) (sd p q) (sc p q) = some (seg p))
    (h3 : ∀ p, p < P → rd q p = ((List.range p).map (fun k => (seg k).length)).sum) :
    ∀ n k tail, k + n = P → tail.length = ((List.range' k n).map (fun p => (seg p).length)).sum →
      recvLoop send sc sd rc rd q (List.range' k n) ((List.range k).flatMap seg ++ tail) =
        some ((List.range P).flatMap seg) := by
  intro n
  induction n with
  | zero =>
    intro k tail hk ht
    simp at ht
    have : k = P := by omega
    subst this
    simp [recvLoop, ht]
  | succ n ih =>
    intro k tail hk ht
    rw [List.range'_succ, List.map_cons, List.sum_cons] at ht
    rw [List.range'_succ, recvLoop, if_pos (h1 k (by omega)), h2 k (by omega)]
    simp only [Option.bind_eq_bind, Option.bind_some]
    have hlen : ((List.range k).flatMap seg).length = rd q k := by
      rw [h3 k (by omega), List.length_flatMap]
    rw [writeSeg, if_pos (by rw [List.length_append, hlen]; omega)]
    simp only [Option.bind_some]
    have e1 : (List.range k).flatMap seg ++ tail = (List.range k).flatMap seg ++ tail := rfl
    rw [List.take_append_of_le_length (by omega), List.take_of_length_le (by omega),
      List.drop_append, List.drop_eq_nil_of_le (by omega), List.nil_append, hlen]
    have e2 : (List.range k).flatMap seg ++ seg k = (List.range (k+1)).flatMap seg := by
      rw [List.range_succ, List.flatMap_append]; simp
    rw [e2]
    apply ih (k+1) _ (by omega)
    rw [List.length_drop]; omega

theorem recv_spec {α : Type} (send : Nat → List α) (sc sd rc rd : Nat → Nat → Nat) (q : Nat)
    (seg : Nat → List α) (P : Nat) (buf : List α)
    (h1 : ∀ p, p < P → sc p q = rc q p)
    (h2 : ∀ p, p < P → readSeg (send p) (sd p q) (sc p q) = some (seg p))
    (h3 : ∀ p, p < P → rd q p = ((List.range p).map (fun k => (seg k).length)).sum)
    (h4 : buf.length = ((List.range P).map (fun p => (seg p).length)).sum) :
    recvLoop send sc sd rc rd q (List.range P) buf = some ((List.range P).flatMap seg) := by
  have := recvLoop_spec send sc sd rc rd q seg P h1 h2 h3 P 0 buf (by omega)
    (by rw [h4, List.range_eq_range'])
  simpa [List.range_eq_range'] using this

theorem allRanks_some {β : Type} {P : Nat} {dflt : Nat → β} {f : Nat → Option β} {g : Nat → β}
    (h : ∀ r, r < P → f r = some (g r)) :
    ∃ k, allRanks P dflt f = some k ∧ ∀ r, r < P → k r = g r := by
  refine ⟨fun r => (f r).getD (dflt r), ?_, ?_⟩
  · unfold allRanks
    rw [if_pos]
    rw [List.all_eq_true]
    intro r hr
    rw [h r (by simpa using hr)]; rfl
  · intro r hr; simp [h r hr]

theorem allRanks_exists {β : Type} {P : Nat} {dflt : Nat → β} {f : Nat → Option β}
    {Q : Nat → β → Prop} (h : ∀ r, r < P → ∃ a, f r = some a ∧ Q r a) :
    ∃ k, allRanks P dflt f = some k ∧ ∀ r, r < P → Q r (k r) := by
  refine ⟨fun r => (f r).getD (dflt r), ?_, ?_⟩
  · unfold allRanks
    rw [if_pos]
    rw [List.all_eq_true]
    intro r hr
    obtain ⟨a, ha, -⟩ := h r (by simpa using hr)
    rw [ha]; rfl
  · intro r hr
    obtain ⟨a, ha, hq⟩ := h r hr
    simp only [ha, Option.getD_some]; exact hq

theorem prefix_sum {s e : Nat → Nat} {N P : Nat} (h : Consec s e N P) (c q : Nat) :
    ((List.range q).map (fun k => c * (e k - s k))).sum = c * s q := by
  induction q with
  | zero => simp [h.zero]
  | succ q ih =>
    rw [List.range_succ, List.map_append, List.sum_append, ih]
    simp only [List.map_cons, List.map_nil, List.sum_cons, List.sum_nil, Nat.add_zero]
    rw [← Nat.mul_add, h.next]
    congr 1
    have := h.mono q; omega

/-- block sent from `p` to `q` when localising rows -/
def blkRows (g : Geom) (c : Cut) (p q : Nat) : List Idx :=
  nest (List.range g.N0) (rng (c.rowStart q) (c.rowEnd q)) (List.range (c.colCount p)) (List.range g.N3)

/-- where it goes on `q` -/
def blkCols (g : Geom) (c : Cut) (q p : Nat) : List Idx :=
  nest (List.range g.N0) (List.range (c.rowCount q)) (rng (c.colStart p) (c.colEnd p)) (List.range g.N3)

theorem blk_base (g : Geom) (c : Cut) (p q : Nat) {α : Type} (G CL RL : Arr α)
    (h1 : ∀ n0 n1 n2 n3, n0 < g.N0 → n1 < c.rowCount q → n2 < c.colCount p → n3 < g.N3 →
      CL (n0, c.rowStart q + n1, n2, n3) = G (n0, c.rowStart q + n1, c.colStart p + n2, n3))
    (h2 : ∀ n0 n1 n2 n3, n0 < g.N0 → n1 < c.rowCount q → n2 < c.colCount p → n3 < g.N3 →
      RL (n0, n1, c.colStart p + n2, n3) = G (n0, c.rowStart q + n1, c.colStart p + n2, n3)) :
    (blkRows g c p q).map CL = (blkCols g c q p).map RL := by
  unfold blkRows blkCols
  rw [rng_eq, rng_eq]
  have e1 := nest_map (List.range g.N0) (List.range (c.rowEnd q - c.rowStart q))
    (List.range (c.colCount p)) (List.range g.N3) (c.rowStart q + ·) id
  have e2 := nest_map (List.range g.N0) (List.range (c.rowCount q))
    (List.range (c.colEnd p - c.colStart p)) (List.range g.N3) id (c.colStart p + ·)
  rw [List.map_id] at e1 e2
  rw [e1, e2, List.map_map, List.map_map]
  change ((nest (List.range g.N0) (List.range (c.rowCount q)) (List.range (c.colCount p))
    (List.range g.N3)).map _) = (nest (List.range g.N0) (List.range (c.rowCount q))
    (List.range (c.colCount p)) (List.range g.N3)).map _
  apply List.map_congr_left
  rintro ⟨n0, n1, n2, n3⟩ hm
  rw [mem_nest] at hm
  simp only [List.mem_range] at hm
  simp only [Function.comp, id]
  rw [h1 _ _ _ _ hm.1 hm.2.1 hm.2.2.1 hm.2.2.2, h2 _ _ _ _ hm.1 hm.2.1 hm.2.2.1 hm.2.2.2]

theorem blkRows_length (g : Geom) (c : Cut) (p q : Nat) :
    (blkRows g c p q).length = clCount g c p q := by
  unfold blkRows clCount
  rw [nest_length]
  simp only [rng, List.length_range, List.length_range', Cut.rowCount, Cut.colCount]
  ring

theorem blkCols_length (g : Geom) (c : Cut) (p q : Nat) :
    (blkCols g c q p).length = rlCount g c q p := by
  unfold blkCols rlCount
  rw [nest_length]
  simp only [rng, List.length_range, List.length_range', Cut.rowCount, Cut.colCount]
  ring

theorem rowsOrder_eq (g : Geom) (c : Cut) (p : Nat) :
    rowsOrder g c p = (List.range g.P).flatMap (blkRows g c p) := rfl

theorem colsOrder_eq (g : Geom) (c : Cut) (q : Nat) :
    colsOrder g c q = (List.range g.P).flatMap (blkCols g c q) := rfl

theorem counts_match (g : Geom) (c : Cut) (p q : Nat) : clCount g c p q = rlCount g c q p := by
  unfold clCount rlCount; ring

theorem clDispl_eq {g : Geom} {c : Cut} (h : Consec c.rowStart c.rowEnd g.N1 g.P) (p q : Nat) :
    clDispl g c p q = ((List.range q).map (fun k => clCount g c p k)).sum := by
  rw [clDispl, ← prefix_sum h]; rfl

theorem rlDispl_eq {g : Geom} {c : Cut} (h : Consec c.colStart c.colEnd g.N2 g.P) (p q : Nat) :
    rlDispl g c p q = ((List.range q).map (fun k => rlCount g c p k)).sum := by
  rw [rlDispl, ← prefix_sum h]; rfl

theorem rowsOrder_length {g : Geom} {c : Cut} (h : Consec c.rowStart c.rowEnd g.N1 g.P) (p : Nat) :
    (rowsOrder g c p).length = clSize g c p := by
  rw [rowsOrder_eq, List.length_flatMap]
  have : (fun a => (blkRows g c p a).length) = (fun k => clCount g c p k) := by
    funext k; exact blkRows_length g c p k
  rw [this, ← clDispl_eq h, clDispl, h.top, clSize]; ring

theorem colsOrder_length {g : Geom} {c : Cut} (h : Consec c.colStart c.colEnd g.N2 g.P) (q : Nat) :
    (colsOrder g c q).length = rlSize g c q := by
  rw [colsOrder_eq, List.length_flatMap]
  have : (fun a => (blkCols g c q a).length) = (fun k => rlCount g c q k) := by
    funext k; exact blkCols_length g c k q
  rw [this, ← rlDispl_eq h, rlDispl, h.top, rlSize]; ring

theorem mem_blocks {s e : Nat → Nat} {N P : Nat} (h : Consec s e N P) {n : Nat} (hn : n < N) :
    ∃ p, p < P ∧ s p ≤ n ∧ n < e p := by
  have key : ∀ P', n < s P' → ∃ p, p < P' ∧ s p ≤ n ∧ n < e p := by
    intro P'
    induction P' with
    | zero => intro hh; rw [h.zero] at hh; omega
    | succ P' ih =>
      intro hh
      by_cases hc : n < s P'
      · obtain ⟨p, h1, h2⟩ := ih hc; exact ⟨p, by omega, h2⟩
      · exact ⟨P', by omega, by omega, by rw [h.next]; exact hh⟩
  exact key P (by rw [h.top]; exact hn)

theorem split_full {α : Type} {order : List Idx} {A : Arr α} {buf : List α}
    (h : order.length = buf.length) : split order A buf = some (order.map A) := by
  unfold split
  rw [if_pos (by omega), h, List.drop_length]; simp

end Dedalus.Transpose
