import Verif.Orders.Inst

namespace Dedalus.Orders
open Subsys Dist

/-- Rows of one layout: row `r` has order `v (r / b)`. -/
structure Rows (b C : Nat) (v : Nat → Int) (w : Nat → Int) : Prop where
  hb : 0 < b
  inj : ∀ k k', k < C → k' < C → v k = v k' → k = k'
  wave : ∀ r, r < b * C → w r = v (r / b)

variable {b C : Nat} {v w : Nat → Int}

theorem rowsWave (hp : Rows b C v w) (s t i k : Nat) (ht : t ≤ C) (hs : s ≤ k) (hk : k < C) (hi : i < b * (t - s)) :
    w (b * s + i) = v k ↔ b * (k - s) ≤ i ∧ i < b * (k - s) + b := by
  have hb := hp.hb
  have hd := div_in hi
  have hlt : b * s + i < b * C := by
    have : (b * s + i) / b < C := lt_of_lt_of_le hd.2.1 ht
    rw [Nat.div_lt_iff_lt_mul hb, Nat.mul_comm C b] at this
    exact this
  rw [hp.wave _ hlt, ← block_iff hb]
  obtain ⟨x, hx⟩ : ∃ x, (b * s + i) / b = x := ⟨_, rfl⟩
  obtain ⟨y, hy⟩ : ∃ y, i / b = y := ⟨_, rfl⟩
  rw [hx, hy] at hd
  rw [hx, hy]
  constructor
  · intro e
    have := hp.inj _ _ (by omega) hk e
    omega
  · intro e
    have : x = k := by omega
    rw [this]

/-- groups with a lowest radial mode -/
def lowGroup (nm : Int → Nat) (w : Nat → Int) (i n : Nat) : Option (Int × Int) := if n < nm (w i) then none else some (w i, (n : Int))

def polE (b N : Nat) (nm : Int → Nat) (v : Nat → Int) (s k : Nat) : Entry :=
  ⟨v k, (b * (k - s), b * (k - s) + b), (b * (k - s), b * (k - s) + b), (nm (v k), N), false⟩

theorem entry_low (hp : Rows b C v w) (nm : Int → Nat) (s t N Ng k : Nat) (ht : t ≤ C) (hs : s ≤ k) (hk : k < t) (hg : 0 < Ng)
    (hn : nm (v k) < N) :
    entry false (lowGroup nm w) w b (List.range' (b * s) (b * (t - s))) (List.range' (b * s) (b * (t - s))) N Ng [some (v k), none]
      = some (polE b N nm v s k) := by
  have hb := hp.hb
  have hq : b * (k - s) < b * (t - s) := Nat.mul_lt_mul_of_pos_left (by omega) hb
  rw [entry_eq false (lowGroup nm w) w b _ _ _ _ _ (b * (k - s), b * (k - s) + b) (nm (v k), N)
    (b * (k - s), b * (k - s) + b) (0, Ng)]
  · rfl
  · rw [List.length_range']
    refine slices_one _ _ _ _ _ _ _ _ hb hq hn le_rfl ?_
    intro i j hi hj
    rw [coeff_selected _ _ i j (b * s + i) _ ((range'_get _ _ _ _).2 ⟨hi, rfl⟩)]
    have hw := rowsWave hp s t i k ht hs (by omega) hi
    rw [← hw]
    unfold lowGroup
    constructor
    · intro e
      split at e
      · simp at e
      · rename_i h
        simp only [Option.map_some, Option.some.injEq] at e
        rw [e] at h
        exact ⟨e, by omega, hj⟩
    · rintro ⟨e, h1, -⟩
      rw [e, if_neg (by omega)]
      rfl
  · rw [List.length_range']
    refine slices_one _ _ _ _ _ _ _ _ hb hq hg le_rfl ?_
    intro i j hi hj
    rw [grid_selected w _ i j (b * s + i) _ ((range'_get _ _ _ _).2 ⟨hi, rfl⟩), rowsWave hp s t i k ht hs (by omega) hi]
    simp [hj]

theorem mem_gridsets (hp : Rows b C v w) (s t Ng : Nat) (ht : t ≤ C) (hg : 0 < Ng) (gs : Group) :
    gs ∈ localGroupsets [false, true] ((allIdx [b * (t - s), Ng]).map (gridGroups w (List.range' (b * s) (b * (t - s))))) ↔
      ∃ k, s ≤ k ∧ k < t ∧ gs = [some (v k), none] := by
  have hb := hp.hb
  rw [mem_groupsets _ _ _ (fun i _ => some (w (b * s + i)))]
  · constructor
    · rintro ⟨i, j, m, hi, hj, h1, rfl⟩
      have hd := div_in hi
      simp only [Option.some.injEq] at h1
      refine ⟨(b * s + i) / b, hd.1, hd.2.1, ?_⟩
      rw [← h1, hp.wave]
      have : (b * s + i) / b < C := lt_of_lt_of_le hd.2.1 ht
      rw [Nat.div_lt_iff_lt_mul hb, Nat.mul_comm C b] at this
      exact this
    · rintro ⟨k, h1, h2, rfl⟩
      have hq : b * (k - s) < b * (t - s) := Nat.mul_lt_mul_of_pos_left (by omega) hb
      exact ⟨b * (k - s), 0, _, hq, hg, congrArg some ((rowsWave hp s t _ k ht h1 (by omega) hq).2 ⟨le_rfl, by omega⟩), rfl⟩
  · intro i j hi hj
    exact ⟨some (j : Int), by simp only [gridGroups, (range'_get _ _ _ _).2 ⟨hi, rfl⟩]⟩

theorem maps_low (hp : Rows b C v w) (nm : Int → Nat) (s t N Ng : Nat) (ht : t ≤ C) (hg : 0 < Ng)
    (hn : ∀ k, k < C → nm (v k) < N) :
    ∃ maps, (localGroupsets [false, true] ((allIdx [(List.range' (b * s) (b * (t - s))).length, Ng]).map
        (gridGroups w (List.range' (b * s) (b * (t - s)))))).mapM
      (entry false (lowGroup nm w) w b (List.range' (b * s) (b * (t - s))) (List.range' (b * s) (b * (t - s))) N Ng) = some maps ∧
      (∀ e, e ∈ maps ↔ ∃ k, s ≤ k ∧ k < t ∧ e = polE b N nm v s k) ∧ (maps.map (·.m)).Nodup := by
  rw [List.length_range']
  have hgs := mem_gridsets hp s t Ng ht hg
  obtain ⟨maps, h1, h2, h3⟩ := mapM_some (entry false (lowGroup nm w) w b (List.range' (b * s) (b * (t - s))) (List.range' (b * s) (b * (t - s))) N Ng)
    (localGroupsets [false, true] ((allIdx [b * (t - s), Ng]).map (gridGroups w (List.range' (b * s) (b * (t - s)))))) (by
      intro gs hm
      obtain ⟨k, a1, a2, rfl⟩ := (hgs gs).1 hm
      exact ⟨_, entry_low hp nm s t N Ng k ht a1 a2 hg (hn k (by omega))⟩)
  refine ⟨maps, h1, ?_, ?_⟩
  · intro e
    rw [h2]
    constructor
    · rintro ⟨gs, hm, he⟩
      obtain ⟨k, a1, a2, rfl⟩ := (hgs gs).1 hm
      rw [entry_low hp nm s t N Ng k ht a1 a2 hg (hn k (by omega))] at he
      exact ⟨k, a1, a2, (Option.some.inj he).symm⟩
    · rintro ⟨k, a1, a2, rfl⟩
      exact ⟨_, (hgs _).2 ⟨k, a1, a2, rfl⟩, entry_low hp nm s t N Ng k ht a1 a2 hg (hn k (by omega))⟩
  · have := h3 (fun e => ([some e.m, none] : Group)) id (by
      intro gs hm e he
      obtain ⟨k, a1, a2, rfl⟩ := (hgs gs).1 hm
      rw [entry_low hp nm s t N Ng k ht a1 a2 hg (hn k (by omega))] at he
      rw [← Option.some.inj he]
      rfl)
    rw [List.map_id] at this
    have hn : (maps.map fun e => ([some e.m, none] : Group)).Nodup := by
      rw [this]; exact nodup_addAll List.nodup_nil
    have hc : (maps.map fun e => ([some e.m, none] : Group)) = (maps.map (·.m)).map fun m => ([some m, none] : Group) := by
      rw [List.map_map]; rfl
    rw [hc] at hn
    exact hn.of_map

theorem row_of (hp : Rows b C v w) (s t i : Nat) (ht : t ≤ C) (hi : i < b * (t - s)) :
    ∃ k, s ≤ k ∧ k < t ∧ i / b = k - s ∧ w (b * s + i) = v k := by
  have hb := hp.hb
  have hd := div_in hi
  obtain ⟨x, hx⟩ : ∃ x, (b * s + i) / b = x := ⟨_, rfl⟩
  obtain ⟨y, hy⟩ : ∃ y, i / b = y := ⟨_, rfl⟩
  rw [hx, hy] at hd
  refine ⟨x, hd.1, hd.2.1, by rw [hy]; omega, ?_⟩
  exact (rowsWave hp s t i x ht hd.1 (by omega) hi).2 ((block_iff hb).1 (by rw [hy]; omega))

theorem forward_low (hp : Rows b C v w) (nm : Int → Nat) (s t N lim : Nat) (ht : t ≤ C) (maps : List Entry)
    (hm : ∀ e, e ∈ maps ↔ ∃ k, s ≤ k ∧ k < t ∧ e = polE b N nm v s k)
    {V : Type} [Zero V] (T : Int → (Nat → V) → Nat → V) (u : Int → Nat → Nat → V) (g : Nat → Nat → V)
    (hu : ∀ i, i < b * (t - s) → g i = u (w (b * s + i)) ((b * s + i) % b)) (i n : Nat) (hi : i < b * (t - s)) (hn : n < N) :
    forward maps lim T g i n = if |w (b * s + i)| ≤ (lim : Int) ∧ nm (w (b * s + i)) ≤ n then
      T (w (b * s + i)) (u (w (b * s + i)) ((b * s + i) % b)) (n - nm (w (b * s + i))) else 0 := by
  have hb := hp.hb
  obtain ⟨k, h1, h2, h3, h4⟩ := row_of hp s t i ht hi
  rw [h4]
  rw [forward_at maps lim T g i n (T (v k) (u (v k) ((b * s + i) % b)) (n - nm (v k)))]
  · have hbl := (block_iff hb).1 h3
    by_cases hc : |v k| ≤ (lim : Int) ∧ nm (v k) ≤ n
    · rw [if_pos hc, if_pos]
      exact ⟨_, (hm _).2 ⟨k, h1, h2, rfl⟩, hc.1, hbl.1, hbl.2, hc.2, hn⟩
    · rw [if_neg hc, if_neg]
      rintro ⟨e, he, c0, c1, c2, c3, c4⟩
      obtain ⟨k', a1, a2, rfl⟩ := (hm e).1 he
      have : i / b = k' - s := (block_iff hb).2 ⟨c1, c2⟩
      have : k' = k := by omega
      subst this
      exact hc ⟨c0, c3⟩
  · rintro e he ⟨c1, c2, c3, c4⟩ hl
    obtain ⟨k', a1, a2, rfl⟩ := (hm e).1 he
    have : i / b = k' - s := (block_iff hb).2 ⟨c1, c2⟩
    have : k' = k := by omega
    subst this
    have c1' : b * (k' - s) ≤ i := c1
    show T (v k') (g (b * (k' - s) + (i - b * (k' - s)))) (if false = true then _ else n - nm (v k')) = _
    rw [show b * (k' - s) + (i - b * (k' - s)) = i by omega, hu i hi, h4]
    simp

theorem backward_low (hp : Rows b C v w) (nm : Int → Nat) (s t N lim : Nat) (ht : t ≤ C) (maps : List Entry)
    (hm : ∀ e, e ∈ maps ↔ ∃ k, s ≤ k ∧ k < t ∧ e = polE b N nm v s k)
    {V : Type} [Zero V] (S : Int → List V → Nat → V) (c : Nat → Nat → V) (i x : Nat) (hi : i < b * (t - s)) :
    backward maps lim S c i x = if |w (b * s + i)| ≤ (lim : Int) then
      S (w (b * s + i)) ((List.range (N - nm (w (b * s + i)))).map fun k => c i (nm (w (b * s + i)) + k)) x else 0 := by
  have hb := hp.hb
  obtain ⟨k, h1, h2, h3, h4⟩ := row_of hp s t i ht hi
  rw [h4]
  rw [backward_at maps lim S c i x (if |v k| ≤ (lim : Int) then
      S (v k) ((List.range (N - nm (v k))).map fun k' => c i (nm (v k) + k')) x else 0)]
  · rw [if_pos]
    exact ⟨_, (hm _).2 ⟨k, h1, h2, rfl⟩, (block_iff hb).1 h3⟩
  · intro e he hcov
    obtain ⟨k', a1, a2, rfl⟩ := (hm e).1 he
    have : i / b = k' - s := (block_iff hb).2 hcov
    have : k' = k := by omega
    subst this
    have c1' : b * (k' - s) ≤ i := hcov.1
    show (if |v k'| > (lim : Int) then 0 else S (v k') ((List.range (N - nm (v k'))).map fun k =>
      c (b * (k' - s) + (i - b * (k' - s))) (nm (v k') + k)) x) = _
    rw [show b * (k' - s) + (i - b * (k' - s)) = i by omega]
    by_cases hl : |v k'| ≤ (lim : Int)
    · rw [if_pos hl, if_neg (by omega)]
    · rw [if_neg hl, if_pos (by omega)]

/-! ## Instances -/

def vReal (Q k : Nat) : Int := if k % 2 = 0 then ((k / 2 : Nat) : Int) else oReal Q (k / 2)

theorem rows_real (Q : Nat) (hQ : 0 < Q) : Rows 2 (2 * Q) (vReal Q) (wave .real (4 * Q)) := by
  refine ⟨by omega, ?_, ?_⟩
  · intro k k' h h' e
    unfold vReal oReal at e
    split at e <;> split at e <;> omega
  · intro r hr
    rw [wave_real Q r hQ (by omega)]
    rfl

def vComplex (M k : Nat) : Int := if k % 2 = 0 then ((k / 2 : Nat) : Int) else oComplex M (k / 2)

theorem rows_complex (M : Nat) (hM : 2 ≤ M) : Rows 1 (2 * M) (vComplex M) (wave .complex (2 * M)) := by
  refine ⟨by omega, ?_, ?_⟩
  · intro k k' h h' e
    unfold vComplex oComplex at e
    split at e <;> split at e <;> first | omega | (split at e <;> first | omega | (split at e <;> omega))
  · intro r hr
    rw [wave_complex M r hM (by omega), Nat.div_one]
    rfl

theorem rows_small (N : Nat) (h : N = 1 ∨ N = 2) : Rows 1 N (fun k => (k : Int)) (wave .complex N) := by
  refine ⟨by omega, fun k k' _ _ e => by simpa using e, ?_⟩
  intro r hr
  rw [Nat.div_one]
  rcases h with rfl | rfl
  · have : r = 0 := by omega
    subst this; decide
  · have : r = 0 ∨ r = 1 := by omega
    rcases this with rfl | rfl <;> decide

end Dedalus.Orders
