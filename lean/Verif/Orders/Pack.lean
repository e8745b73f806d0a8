import Verif.Orders.Lemmas

namespace Dedalus.Orders
open Subsys Dist

/-- Layout of a triangular truncation in pairs of orders. -/
structure Pack (b C L sh : Nat) (o : Nat → Int) (G : Nat → Nat → Option (Int × Int)) (w : Nat → Int) : Prop where
  hb : 0 < b
  abs : ∀ k, k < C → |o k| + sh + k = L + 1
  inj : ∀ k k', k < C → k' < C → o k = o k' → k = k'
  sep : ∀ k k' : Nat, k < C → k' < C → o k ≠ (k' : Int)
  le : ∀ k, k < C → k ≤ L
  zlo : ∀ r j, r / b = 0 → j ≤ L → G r j = some (0, (j : Int))
  zhi : ∀ r j, r / b = 0 → L < j → G r j = some (o 0, (j : Int) - sh)
  pos : ∀ r j, 0 < r / b → r / b < C → sh + r / b ≤ j → G r j = some (((r / b : Nat) : Int), (j : Int) - sh)
  neg : ∀ r j, 0 < r / b → r / b < C → j < sh + r / b → G r j = some (o (r / b), (L : Int) - j)
  wave : ∀ r, r < 2 * b * C → w r = if r / b % 2 = 0 then ((r / b / 2 : Nat) : Int) else o (r / b / 2)

variable {b C L sh : Nat} {o : Nat → Int} {G : Nat → Nat → Option (Int × Int)} {w : Nat → Int}

def ordr (o : Nat → Int) (k : Nat) (h : Bool) : Int := if h then o k else k
def clo (L sh k : Nat) (h : Bool) : Nat := if h then (if k = 0 then L + 1 else 0) else (if k = 0 then 0 else sh + k)
def chi (L sh k : Nat) (h : Bool) : Nat := if h then (if k = 0 then L + 1 + sh else sh + k) else (if k = 0 then L + 1 else L + 1 + sh)
def rev (k : Nat) (h : Bool) : Bool := h && decide (k ≠ 0)

theorem ordr_inj (hp : Pack b C L sh o G w) {k k' : Nat} {h h' : Bool} (hk : k < C) (hk' : k' < C)
    (e : ordr o k h = ordr o k' h') : k = k' ∧ h = h' := by
  unfold ordr at e
  cases h <;> cases h' <;> simp only [Bool.false_eq_true, if_false, if_true] at e
  · exact ⟨by omega, rfl⟩
  · exact absurd e.symm (hp.sep k' k hk' hk)
  · exact absurd e (hp.sep k k' hk hk')
  · exact ⟨hp.inj k k' hk hk' e, rfl⟩

/-- the slot of a column -/
theorem group_at (hp : Pack b C L sh o G w) (r j : Nat) (hr : r / b < C) (hj : j < L + 1 + sh) :
    ∃ h, clo L sh (r / b) h ≤ j ∧ j < chi L sh (r / b) h ∧
      G r j = some (ordr o (r / b) h, |ordr o (r / b) h| + (if rev (r / b) h then chi L sh (r / b) h - 1 - j else j - clo L sh (r / b) h : Nat)) := by
  have ha := hp.abs _ hr
  have hzlo := hp.zlo r j
  have hzhi := hp.zhi r j
  have hpos := hp.pos r j
  have hneg := hp.neg r j
  generalize r / b = k at *
  by_cases h0 : k = 0
  · by_cases h1 : j ≤ L
    · refine ⟨false, ?_⟩
      rw [hzlo h0 h1, h0]
      simp [clo, chi, ordr, rev]
      omega
    · refine ⟨true, ?_⟩
      rw [hzhi h0 (by omega), h0]
      simp only [clo, chi, ordr, rev, if_true]
      refine ⟨by omega, by omega, ?_⟩
      simp
      rw [h0] at ha
      omega
  · by_cases h1 : sh + k ≤ j
    · refine ⟨false, ?_⟩
      rw [hpos (by omega) hr h1]
      simp [clo, chi, ordr, rev, h0]
      refine ⟨by omega, by omega, ?_⟩
      omega
    · refine ⟨true, ?_⟩
      rw [hneg (by omega) hr (by omega)]
      simp [clo, chi, ordr, rev, h0]
      refine ⟨by omega, ?_⟩
      omega

theorem clo_chi_excl (k j : Nat) (h h' : Bool) (h1 : clo L sh k h ≤ j ∧ j < chi L sh k h) (h2 : clo L sh k h' ≤ j ∧ j < chi L sh k h') : h = h' := by
  unfold clo chi at h1 h2
  by_cases hk : k = 0 <;> cases h <;> cases h' <;> simp [hk] at h1 h2 ⊢ <;> omega

theorem chi_le (hp : Pack b C L sh o G w) (k : Nat) (hk : k < C) (h : Bool) : chi L sh k h ≤ L + 1 + sh := by
  have := hp.le k hk
  unfold chi
  split <;> split <;> omega

theorem order_iff (hp : Pack b C L sh o G w) (r j k : Nat) (h : Bool) (hr : r / b < C) (hk : k < C) (hj : j < L + 1 + sh) :
    (G r j).map (·.1) = some (ordr o k h) ↔ r / b = k ∧ clo L sh k h ≤ j ∧ j < chi L sh k h := by
  obtain ⟨h', h1, h2, h3⟩ := group_at hp r j hr hj
  rw [h3]
  simp only [Option.map_some, Option.some.injEq]
  constructor
  · intro e
    obtain ⟨e1, e2⟩ := ordr_inj hp hr hk e
    subst e1 e2
    exact ⟨rfl, h1, h2⟩
  · rintro ⟨rfl, h4⟩
    rw [clo_chi_excl _ _ _ _ ⟨h1, h2⟩ h4]

theorem div_in {b s t i : Nat} (hi : i < b * (t - s)) : s ≤ (b * s + i) / b ∧ (b * s + i) / b < t ∧ (b * s + i) / b = s + i / b := by
  have hb : 0 < b := by
    rcases Nat.eq_zero_or_pos b with rfl | h
    · simp at hi
    · exact h
  rw [Nat.mul_add_div hb]
  have : i / b < t - s := by rw [Nat.div_lt_iff_lt_mul hb, Nat.mul_comm]; exact hi
  generalize i / b = x at *
  omega

def mkE (b L sh : Nat) (o : Nat → Int) (s k : Nat) (h : Bool) : Entry :=
  ⟨ordr o k h, (b * (2 * (k - s) + h.toNat), b * (2 * (k - s) + h.toNat) + b), (b * (k - s), b * (k - s) + b),
    (clo L sh k h, chi L sh k h), rev k h⟩

theorem block_iff {b i q : Nat} (hb : 0 < b) : i / b = q ↔ b * q ≤ i ∧ i < b * q + b := by
  rw [Nat.div_eq_iff hb, Nat.mul_comm q b]; omega

theorem wave_iff (hp : Pack b C L sh o G w) (s t i k : Nat) (h : Bool) (ht : t ≤ C) (hs : s ≤ k) (hk : k < C)
    (hi : i < 2 * b * (t - s)) : w (2 * b * s + i) = ordr o k h ↔ b * (2 * (k - s) + h.toNat) ≤ i ∧ i < b * (2 * (k - s) + h.toNat) + b := by
  have hb := hp.hb
  have e1 : 2 * b * s + i = b * (2 * s) + i := by ring
  have e2 : i < b * (2 * t - 2 * s) := by
    have : b * (2 * t - 2 * s) = 2 * b * (t - s) := by rw [← Nat.mul_sub]; ring
    omega
  have hd := div_in e2
  have hlt : 2 * b * s + i < 2 * b * C := by
    have : (b * (2 * s) + i) / b < 2 * C := by
      have := hd.2.1
      generalize (b * (2 * s) + i) / b = x at *
      omega
    rw [Nat.div_lt_iff_lt_mul hb] at this
    rw [e1]
    calc b * (2 * s) + i < 2 * C * b := this
      _ = 2 * b * C := by ring
  rw [hp.wave _ hlt, ← block_iff hb, e1, hd.2.2]
  have e3 : (if (2 * s + i / b) % 2 = 0 then (((2 * s + i / b) / 2 : Nat) : Int) else o ((2 * s + i / b) / 2))
      = ordr o ((2 * s + i / b) / 2) (decide ((2 * s + i / b) % 2 = 1)) := by
    unfold ordr
    by_cases h2 : (2 * s + i / b) % 2 = 0
    · rw [if_pos h2, if_neg (by simp; omega)]
    · rw [if_neg h2, if_pos (by simp; omega)]
  rw [e3]
  constructor
  · intro e
    obtain ⟨a1, a2⟩ := ordr_inj hp (by omega) hk e
    cases h
    · have := of_decide_eq_false a2; simp; omega
    · have := of_decide_eq_true a2; simp; omega
  · intro e
    have : (2 * s + i / b) / 2 = k ∧ decide ((2 * s + i / b) % 2 = 1) = h := by
      cases h
      · simp at e; constructor
        · omega
        · simp; omega
      · simp at e; constructor
        · omega
        · simp; omega
    rw [this.1, this.2]

theorem entry_pack (hp : Pack b C L sh o G w) (s t Ng k : Nat) (h : Bool) (ht : t ≤ C) (hs : s ≤ k) (hk : k < t) (hg : 0 < Ng)
    (hne : clo L sh k h < chi L sh k h) :
    entry true G w b (List.range' (b * s) (b * (t - s))) (List.range' (2 * b * s) (2 * b * (t - s))) (L + 1 + sh) Ng [some (ordr o k h), none]
      = some (mkE b L sh o s k h) := by
  have hb := hp.hb
  have hq : b * (k - s) < b * (t - s) := Nat.mul_lt_mul_of_pos_left (by omega) hb
  have hq2 : b * (2 * (k - s) + h.toNat) < 2 * b * (t - s) := by
    have : b * (2 * (k - s) + h.toNat) < b * (2 * (t - s)) := Nat.mul_lt_mul_of_pos_left (by cases h <;> simp <;> omega) hb
    calc _ < b * (2 * (t - s)) := this
      _ = _ := by ring
  rw [entry_eq true G w b _ _ _ _ _ (b * (k - s), b * (k - s) + b) (clo L sh k h, chi L sh k h)
    (b * (2 * (k - s) + h.toNat), b * (2 * (k - s) + h.toNat) + b) (0, Ng)]
  · unfold mkE
    simp only [Option.some.injEq, Entry.mk.injEq, true_and]
    have hC : k < C := by omega
    unfold clo rev ordr at *
    cases h
    · by_cases h0 : k = 0 <;> simp [h0]
    · have := hp.sep k 0 hC (by omega)
      by_cases h0 : k = 0
      · simp [h0]
      · simpa [h0] using this
  · rw [List.length_range']
    refine slices_one _ _ _ _ _ _ _ _ hb hq hne (chi_le hp k (by omega) h) ?_
    intro i j hi hj
    rw [coeff_selected G _ i j (b * s + i) _ ((range'_get _ _ _ _).2 ⟨hi, rfl⟩)]
    have hd := div_in hi
    rw [order_iff hp _ _ _ _ (by omega) (by omega) hj, hd.2.2, ← block_iff hb]
    constructor
    · rintro ⟨h1, h2⟩; exact ⟨by omega, h2⟩
    · rintro ⟨h1, h2⟩; exact ⟨by omega, h2⟩
  · rw [List.length_range']
    refine slices_one _ _ _ _ _ _ _ _ hb hq2 hg le_rfl ?_
    intro i j hi hj
    rw [grid_selected w _ i j (2 * b * s + i) _ ((range'_get _ _ _ _).2 ⟨hi, rfl⟩), wave_iff hp s t i k h ht hs (by omega) hi]
    simp [hj]

theorem maps_pack (hp : Pack b C L sh o G w) (s t Ng : Nat) (ht : t ≤ C) (hg : 0 < Ng) :
    ∃ maps, (localGroupsets [false, true] ((allIdx [(List.range' (b * s) (b * (t - s))).length, L + 1 + sh]).map
        (coeffGroups G (List.range' (b * s) (b * (t - s)))))).mapM
      (entry true G w b (List.range' (b * s) (b * (t - s))) (List.range' (2 * b * s) (2 * b * (t - s))) (L + 1 + sh) Ng) = some maps ∧
      (∀ e, e ∈ maps ↔ ∃ k h, s ≤ k ∧ k < t ∧ clo L sh k h < chi L sh k h ∧ e = mkE b L sh o s k h) ∧ (maps.map (·.m)).Nodup := by
  have hb := hp.hb
  rw [List.length_range']
  have hgs : ∀ gs, gs ∈ localGroupsets [false, true] ((allIdx [b * (t - s), L + 1 + sh]).map (coeffGroups G (List.range' (b * s) (b * (t - s))))) ↔
      ∃ k h, s ≤ k ∧ k < t ∧ clo L sh k h < chi L sh k h ∧ gs = [some (ordr o k h), none] := by
    intro gs
    rw [mem_groupsets _ _ _ (fun i j => (G (b * s + i) j).map (·.1))]
    · constructor
      · rintro ⟨i, j, m, hi, hj, h1, rfl⟩
        have hd := div_in hi
        obtain ⟨h, a1, a2, a3⟩ := group_at hp (b * s + i) j (by omega) hj
        rw [a3] at h1
        simp only [Option.map_some, Option.some.injEq] at h1
        exact ⟨_, h, hd.1, hd.2.1, by omega, by rw [h1]⟩
      · rintro ⟨k, h, h1, h2, h3, rfl⟩
        have hc := chi_le hp k (by omega) h
        have hq : b * (k - s) < b * (t - s) := Nat.mul_lt_mul_of_pos_left (by omega) hb
        refine ⟨b * (k - s), clo L sh k h, _, hq, by omega, ?_, rfl⟩
        have hd := div_in hq
        rw [Nat.mul_div_cancel_left _ hb] at hd
        rw [order_iff hp _ _ _ _ (by omega) (by omega) (by omega), hd.2.2]
        exact ⟨by omega, le_rfl, h3⟩
    · intro i j hi hj
      exact ⟨(G (b * s + i) j).map (·.2), by simp only [coeffGroups, (range'_get _ _ _ _).2 ⟨hi, rfl⟩]⟩
  obtain ⟨maps, h1, h2, h3⟩ := mapM_some (entry true G w b (List.range' (b * s) (b * (t - s))) (List.range' (2 * b * s) (2 * b * (t - s))) (L + 1 + sh) Ng)
    (localGroupsets [false, true] ((allIdx [b * (t - s), L + 1 + sh]).map (coeffGroups G (List.range' (b * s) (b * (t - s)))))) (by
      intro gs hgs'
      obtain ⟨k, h, a1, a2, a3, rfl⟩ := (hgs gs).1 hgs'
      exact ⟨_, entry_pack hp s t Ng k h ht a1 a2 hg a3⟩)
  refine ⟨maps, h1, ?_, ?_⟩
  · intro e
    rw [h2]
    constructor
    · rintro ⟨gs, hm, he⟩
      obtain ⟨k, h, a1, a2, a3, rfl⟩ := (hgs gs).1 hm
      rw [entry_pack hp s t Ng k h ht a1 a2 hg a3] at he
      exact ⟨k, h, a1, a2, a3, (Option.some.inj he).symm⟩
    · rintro ⟨k, h, a1, a2, a3, rfl⟩
      exact ⟨_, (hgs _).2 ⟨k, h, a1, a2, a3, rfl⟩, entry_pack hp s t Ng k h ht a1 a2 hg a3⟩
  · have := h3 (fun e => ([some e.m, none] : Group)) id (by
      intro gs hm e he
      obtain ⟨k, h, a1, a2, a3, rfl⟩ := (hgs gs).1 hm
      rw [entry_pack hp s t Ng k h ht a1 a2 hg a3] at he
      rw [← Option.some.inj he]
      rfl)
    rw [List.map_id] at this
    have hn : (maps.map fun e => ([some e.m, none] : Group)).Nodup := by
      rw [this]; exact nodup_addAll List.nodup_nil
    have hc : (maps.map fun e => ([some e.m, none] : Group)) = (maps.map (·.m)).map fun m => ([some m, none] : Group) := by
      rw [List.map_map]; rfl
    rw [hc] at hn
    exact hn.of_map

/-! ## Transforms -/

/-- The coefficients after the forward loop. -/
theorem forward_pack (hp : Pack b C L sh o G w) (s t : Nat) (ht : t ≤ C) (maps : List Entry)
    (hm : ∀ e, e ∈ maps ↔ ∃ k h, s ≤ k ∧ k < t ∧ clo L sh k h < chi L sh k h ∧ e = mkE b L sh o s k h)
    {V : Type} [Zero V] (T : Int → (Nat → V) → Nat → V) (u : Int → Nat → Nat → V) (g : Nat → Nat → V)
    (hu : ∀ i, i < 2 * b * (t - s) → g i = u (w (2 * b * s + i)) ((2 * b * s + i) % b)) (i j : Nat) (hi : i < b * (t - s)) (hj : j < L + 1 + sh) :
    ∃ m l, G (b * s + i) j = some (m, l) ∧ |m| ≤ l ∧ l ≤ L ∧ forward maps L T g i j = T m (u m ((b * s + i) % b)) (l - |m|).toNat := by
  have hb := hp.hb
  have hd := div_in hi
  obtain ⟨k, hkd⟩ : ∃ k, (b * s + i) / b = k := ⟨_, rfl⟩
  obtain ⟨q, hqd⟩ : ∃ q, i / b = q := ⟨_, rfl⟩
  rw [hkd, hqd] at hd
  have hC : k < C := by omega
  obtain ⟨h, a1, a2, a3⟩ := group_at hp (b * s + i) j (by rw [hkd]; exact hC) hj
  rw [hkd] at a1 a2 a3
  have hle : |ordr o k h| + (if rev k h then chi L sh k h - 1 - j else j - clo L sh k h : Nat) ≤ L := by
    have ha := hp.abs _ hC
    have hl := hp.le _ hC
    unfold ordr rev clo chi at *
    have habs : |(k : Int)| = (k : Int) := abs_of_nonneg (by omega)
    cases h
    · by_cases h0 : k = 0
      · simp [h0] at a2 ⊢; omega
      · simp only [Bool.false_eq_true, if_false, h0] at a1 a2 ⊢
        rw [habs]
        simp
        omega
    · by_cases h0 : k = 0
      · simp [h0] at ha a1 a2 ⊢; omega
      · simp [h0] at ha a1 a2 ⊢; omega
  refine ⟨_, _, a3, by omega, hle, ?_⟩
  rw [forward_at maps L T g i j (T (ordr o k h) (u (ordr o k h) ((b * s + i) % b))
    (if rev k h then chi L sh k h - 1 - j else j - clo L sh k h))]
  · rw [if_pos, add_sub_cancel_left, Int.toNat_natCast]
    refine ⟨_, (hm _).2 ⟨_, h, hd.1, hd.2.1, by omega, rfl⟩, ?_, ?_⟩
    · show |ordr o k h| ≤ _
      omega
    · have := (block_iff (i := i) (q := k - s) hb).1 (by rw [hqd]; omega)
      exact ⟨this.1, this.2, a1, a2⟩
  · intro e he hc hl
    obtain ⟨k', h', h1, h2, h3, rfl⟩ := (hm e).1 he
    obtain ⟨c1, c2, c3, c4⟩ := hc
    have hk : k = k' := by
      have : i / b = k' - s := (block_iff hb).2 ⟨c1, c2⟩
      rw [hqd] at this
      omega
    have hh := clo_chi_excl (L := L) (sh := sh) k' j h h' (by rw [← hk]; exact ⟨a1, a2⟩) ⟨c3, c4⟩
    subst hh
    subst hk
    show T (ordr o _ h) (g (b * (2 * (k - s) + h.toNat) + (i - b * (k - s)))) _ = _
    have c1' : b * (k - s) ≤ i := c1
    have c2' : i < b * (k - s) + b := c2
    have hx : b * (2 * (k - s) + h.toNat) + (i - b * (k - s)) < 2 * b * (t - s) := by
      have q1 : 2 * (k - s) + h.toNat + 1 ≤ 2 * (t - s) := by cases h <;> simp <;> omega
      have q2 := Nat.mul_le_mul_left b q1
      have q3 : b * (2 * (k - s) + h.toNat + 1) = b * (2 * (k - s) + h.toNat) + b := by ring
      have q4 : b * (2 * (t - s)) = 2 * b * (t - s) := by ring
      omega
    rw [hu _ hx, (wave_iff hp s t _ _ h ht hd.1 hC hx).2 ⟨by omega, by omega⟩]
    congr 2
    have e1 : i - b * (k - s) = i % b := by
      have : k - s = i / b := by rw [hqd]; omega
      rw [this]; exact (Nat.sub_eq_of_eq_add (by rw [Nat.add_comm]; exact (Nat.div_add_mod i b).symm))
    rw [e1, Nat.mul_add_mod, show 2 * b * s + (b * (2 * (k - s) + h.toNat) + i % b)
      = b * (2 * s + (2 * (k - s) + h.toNat)) + i % b by ring, Nat.mul_add_mod, Nat.mod_mod]

/-- The grid rows after the backward loop. -/
theorem backward_pack (hp : Pack b C L sh o G w) (s t : Nat) (ht : t ≤ C) (maps : List Entry)
    (hm : ∀ e, e ∈ maps ↔ ∃ k h, s ≤ k ∧ k < t ∧ clo L sh k h < chi L sh k h ∧ e = mkE b L sh o s k h)
    {V : Type} [Zero V] (S : Int → List V → Nat → V) (a : Int → Int → Nat → V) (c : Nat → Nat → V)
    (hc : ∀ i j m l, i < b * (t - s) → j < L + 1 + sh → G (b * s + i) j = some (m, l) → c i j = a m l ((b * s + i) % b))
    (i x : Nat) (hi : i < 2 * b * (t - s)) :
    backward maps L S c i x = if |w (2 * b * s + i)| ≤ (L : Int) then
      S (w (2 * b * s + i)) ((List.range (L + 1 - (w (2 * b * s + i)).natAbs)).map fun k : Nat =>
        a (w (2 * b * s + i)) (|w (2 * b * s + i)| + (k : Int)) ((2 * b * s + i) % b)) x else 0 := by
  have hb := hp.hb
  have hi2 : i < b * (2 * t - 2 * s) := by
    have : b * (2 * t - 2 * s) = 2 * b * (t - s) := by rw [← Nat.mul_sub]; ring
    omega
  have hd := div_in hi2
  -- the chunk and half of the row
  obtain ⟨k, h, hk1, hk2, hq⟩ : ∃ k, ∃ h : Bool, s ≤ k ∧ k < t ∧ i / b = 2 * (k - s) + h.toNat := by
    generalize (b * (2 * s) + i) / b = y at hd
    generalize i / b = x at *
    refine ⟨s + x / 2, decide (x % 2 = 1), by omega, by omega, ?_⟩
    by_cases h2 : x % 2 = 1
    · simp [h2]; omega
    · simp [h2]; omega
  have hkC : k < C := by omega
  have hw : w (2 * b * s + i) = ordr o k h := (wave_iff hp s t i k h ht hk1 hkC hi).2 ((block_iff hb).1 hq)
  rw [hw]
  have ha := hp.abs _ hkC
  have hl := hp.le _ hkC
  have habs : |((k : Nat) : Int)| = k := abs_of_nonneg (by omega)
  have hwid : clo L sh k h < chi L sh k h ↔ |ordr o k h| ≤ (L : Int) := by
    unfold clo chi ordr
    cases h <;> by_cases h0 : k = 0
    · simp [h0]
    · simp only [Bool.false_eq_true, if_false, h0, habs]; omega
    · subst h0; simp at ha ⊢; omega
    · simp [h0]; omega
  have hwid2 : |ordr o k h| ≤ (L : Int) → chi L sh k h - clo L sh k h = L + 1 - (ordr o k h).natAbs := by
    intro hle
    have hn : |o k| = ((o k).natAbs : Int) := Int.abs_eq_natAbs _
    have hn2 : ((k : Int)).natAbs = k := Int.natAbs_natCast k
    unfold clo chi ordr at *
    cases h <;> by_cases h0 : k = 0
    · simp [h0]
    · simp only [Bool.false_eq_true, if_false, h0] at *; omega
    · subst h0; simp only [if_true] at *; omega
    · simp only [if_true, h0, if_false] at *; omega
  rw [backward_at maps L S c i x (if |ordr o k h| ≤ (L : Int) then
      S (ordr o k h) ((List.range (L + 1 - (ordr o k h).natAbs)).map fun k' : Nat => a (ordr o k h) (|ordr o k h| + (k' : Int)) ((2 * b * s + i) % b)) x else 0)]
  · by_cases hle : |ordr o k h| ≤ (L : Int)
    · rw [if_pos]
      exact ⟨_, (hm _).2 ⟨k, h, hk1, hk2, hwid.2 hle, rfl⟩, (block_iff hb).1 hq⟩
    · rw [if_neg hle, ite_self]
  · intro e he hcov
    obtain ⟨k', h', h1, h2, h3, rfl⟩ := (hm e).1 he
    have hq' : i / b = 2 * (k' - s) + h'.toNat := (block_iff hb).2 hcov
    have : k' = k ∧ h' = h := by
      cases h <;> cases h' <;> simp at hq hq' ⊢ <;> omega
    obtain ⟨rfl, rfl⟩ := this
    have hle := hwid.1 h3
    rw [if_pos hle]
    have hm' : (mkE b L sh o s k' h').m = ordr o k' h' := rfl
    rw [hm', if_neg (by omega)]
    refine congrArg (fun l => S (ordr o k' h') l x) ?_
    show (List.range (chi L sh k' h' - clo L sh k' h')).map _ = _
    rw [hwid2 hle]
    refine List.map_congr_left fun n hn => ?_
    rw [List.mem_range] at hn
    -- the local coefficient
    show c (b * (k' - s) + (i - b * (2 * (k' - s) + h'.toNat))) ((mkE b L sh o s k' h').col n) = _
    obtain ⟨b1, b2⟩ := (block_iff hb).1 hq'
    have hrow : b * (k' - s) + (i - b * (2 * (k' - s) + h'.toNat)) < b * (t - s) := by
      have q1 := Nat.mul_le_mul_left b (show k' - s + 1 ≤ t - s by omega)
      have q2 : b * (k' - s + 1) = b * (k' - s) + b := by ring
      omega
    have hdr := div_in hrow
    have hdiv : (b * (k' - s) + (i - b * (2 * (k' - s) + h'.toNat))) / b = k' - s := (block_iff hb).2 ⟨by omega, by omega⟩
    have hk'' : (b * s + (b * (k' - s) + (i - b * (2 * (k' - s) + h'.toNat)))) / b = k' := by omega
    have hn2 : n < chi L sh k' h' - clo L sh k' h' := by rw [hwid2 hle]; exact hn
    have hcol : clo L sh k' h' ≤ (mkE b L sh o s k' h').col n ∧ (mkE b L sh o s k' h').col n < chi L sh k' h' := by
      unfold Entry.col mkE
      simp only
      split <;> omega
    have hcl := chi_le hp k' hkC h'
    obtain ⟨h'', g1, g2, g3⟩ := group_at hp _ ((mkE b L sh o s k' h').col n) (show (b * s + (b * (k' - s) + (i - b * (2 * (k' - s) + h'.toNat)))) / b < C by omega) (by omega)
    rw [hk''] at g1 g2 g3
    have hh := clo_chi_excl k' _ h'' h' ⟨g1, g2⟩ hcol
    subst hh
    have g4 : (if rev k' h'' then chi L sh k' h'' - 1 - (mkE b L sh o s k' h'').col n else (mkE b L sh o s k' h'').col n - clo L sh k' h'' : Nat) = n := by
      unfold Entry.col mkE
      simp only
      split <;> omega
    rw [g4] at g3
    rw [hc _ _ _ _ hrow (by omega) g3]
    congr 1
    have e1 : i - b * (2 * (k' - s) + h''.toNat) = i % b := by
      rw [← hq']; exact (Nat.sub_eq_of_eq_add (by rw [Nat.add_comm]; exact (Nat.div_add_mod i b).symm))
    rw [e1, show 2 * b * s + i = b * (2 * s) + i by ring, Nat.mul_add_mod, Nat.mul_add_mod, Nat.mul_add_mod, Nat.mod_mod]

end Dedalus.Orders
