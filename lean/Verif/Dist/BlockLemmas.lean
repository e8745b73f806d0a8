import Verif.Dist.Block
import Mathlib.Tactic.Ring

namespace Dedalus.Dist

theorem ceilDiv_python (a b : Nat) (hb : 0 < b) : (ceilDiv a b : Int) = -(Int.fdiv (-(a:Int)) b) := by
  unfold ceilDiv
  have hb' : (0:Int) ≤ b := by positivity
  rw [Int.fdiv_eq_ediv_of_nonneg _ hb']
  have hb0 : (0:Int) < b := by exact_mod_cast hb
  have key : ((a + b - 1 : Nat) : Int) = a + b - 1 := by omega
  rw [Int.natCast_ediv, key]
  have : -(a:Int) = -((a:Int) + b - 1) + (b - 1) := by ring
  obtain ⟨q, r, hq, hr0, hr1⟩ : ∃ q r : Int, (a:Int) + b - 1 = b * q + r ∧ 0 ≤ r ∧ r < b :=
    ⟨((a:Int)+b-1) / b, ((a:Int)+b-1) % b, (Int.mul_ediv_add_emod _ _).symm, Int.emod_nonneg _ (by omega), Int.emod_lt_of_pos _ hb0⟩
  have e1 : ((a:Int) + b - 1) / b = q := by
    rw [hq, Int.add_comm, Int.add_mul_ediv_left _ _ (by omega), Int.ediv_eq_zero_of_lt hr0 hr1]; omega
  have e2 : (-(a:Int)) / b = -q := by
    have : -(a:Int) = (b - 1 - r) + b * (-q) := by rw [mul_neg]; omega
    rw [this, Int.add_mul_ediv_left _ _ (by omega), Int.ediv_eq_zero_of_lt (by omega) (by omega)]; omega
  rw [e1, e2]; omega

theorem ceilDiv_mul {a b : Nat} (hb : 0 < b) : a ≤ ceilDiv a b * b := by
  unfold ceilDiv
  have := Nat.lt_div_mul_add (a := a + b - 1) hb
  omega

theorem ceilDiv_mul_lt {a b : Nat} (hb : 0 < b) : ceilDiv a b * b < a + b := by
  unfold ceilDiv
  have := Nat.div_mul_le_self (a + b - 1) b
  omega

theorem ceilDiv_dvd {a b : Nat} (hb : 0 < b) (h : b ∣ a) : ceilDiv a b * b = a := by
  obtain ⟨k, rfl⟩ := h
  have h1 := ceilDiv_mul (a := b * k) hb
  have h2 := ceilDiv_mul_lt (a := b * k) hb
  have h3 : k ≤ ceilDiv (b*k) b := by
    by_contra hc
    have : (ceilDiv (b*k) b + 1) * b ≤ k * b := Nat.mul_le_mul_right _ (by omega)
    have e : k * b = b * k := Nat.mul_comm _ _
    have : (ceilDiv (b*k) b + 1) * b = ceilDiv (b*k) b * b + b := by ring
    omega
  have h4 : ceilDiv (b*k) b < k + 1 := by
    by_contra hc
    have : (k + 1) * b ≤ ceilDiv (b*k) b * b := Nat.mul_le_mul_right _ (by omega)
    have : (k + 1) * b = b * k + b := by ring
    omega
  have : ceilDiv (b*k) b = k := by omega
  rw [this, Nat.mul_comm]

theorem ceilDiv_pos {a b : Nat} (ha : 0 < a) (hb : 0 < b) : 0 < ceilDiv a b := by
  by_contra h
  have := ceilDiv_mul (a := a) hb
  have h0 : ceilDiv a b = 0 := by omega
  rw [h0] at this; omega

theorem zip_repeat_tile (c : Nat) (xs : List Nat) :
    List.zipWith (· + ·) ((npRepeat xs c).map (c * ·)) (npTile (List.range c) xs.length)
      = xs.flatMap (fun k => (List.range c).map (c * k + ·)) := by
  induction xs with
  | nil => rfl
  | cons x xs ih =>
    simp only [npRepeat, npTile, List.flatMap_cons, List.length_cons, List.replicate_succ,
      List.flatten_cons, List.map_append] at ih ⊢
    rw [List.zipWith_append (by simp), ih]
    congr 1
    simp only [List.map_replicate]
    apply List.ext_getElem?
    intro i
    by_cases hi : i < c
    · simp [List.getElem?_zipWith, hi]
    · rw [List.getElem?_eq_none (by simp; omega), List.getElem?_eq_none (by simp; omega)]

theorem flatMap_range' (c s n : Nat) :
    (List.range' s n).flatMap (fun k => (List.range c).map (c * k + ·)) = List.range' (c * s) (c * n) := by
  induction n generalizing s with
  | zero => simp
  | succ n ih =>
    rw [List.range'_succ, List.flatMap_cons, ih]
    have : c * (n+1) = c + c * n := by ring
    rw [this, ← List.range'_append_1]
    have h2 : c * (s + 1) = c * s + c := by ring
    rw [h2]
    congr 1
    rw [List.range_eq_range', List.map_add_range', Nat.add_zero]

/-- First local chunk and one past the last local chunk. -/
def startChunk (b : Bool) (ax : Axis) (r : Nat) : Nat :=
  if ax.isLocal then 0 else
    min (ceilDiv ax.size ax.chunk) (ceilDiv (ceilDiv ax.size ax.chunk) ax.mesh * (if b && ax.constant then 0 else r))

def stopChunk (b : Bool) (ax : Axis) (r : Nat) : Nat :=
  if ax.isLocal then ceilDiv ax.size ax.chunk else
    min (ceilDiv ax.size ax.chunk) (ceilDiv (ceilDiv ax.size ax.chunk) ax.mesh * ((if b && ax.constant then 0 else r) + 1))

theorem localChunks_eq (b : Bool) (ax : Axis) (r : Nat) :
    localChunks b ax r = List.range' (startChunk b ax r) (stopChunk b ax r - startChunk b ax r) := by
  unfold localChunks startChunk stopChunk arange
  cases ax.isLocal <;> simp

theorem start_le_stop (b : Bool) (ax : Axis) (r : Nat) : startChunk b ax r ≤ stopChunk b ax r := by
  unfold startChunk stopChunk
  split
  · omega
  · apply min_le_min (le_refl _)
    apply Nat.mul_le_mul_left; omega

theorem localElements_eq (b : Bool) (ax : Axis) (r : Nat) :
    localElements b ax r = List.range' (ax.chunk * startChunk b ax r)
      (ax.chunk * (stopChunk b ax r - startChunk b ax r)) := by
  unfold localElements
  rw [localChunks_eq, zip_repeat_tile, flatMap_range']

theorem mem_localElements {b : Bool} {ax : Axis} {r i : Nat} (hc : 0 < ax.chunk) :
    i ∈ localElements b ax r ↔ startChunk b ax r ≤ i / ax.chunk ∧ i / ax.chunk < stopChunk b ax r := by
  rw [localElements_eq, List.mem_range'_1, Nat.le_div_iff_mul_le hc, Nat.div_lt_iff_lt_mul hc,
    ← Nat.mul_add]
  have : startChunk b ax r + (stopChunk b ax r - startChunk b ax r) = stopChunk b ax r := by
    have := start_le_stop b ax r; omega
  rw [this, Nat.mul_comm ax.chunk, Nat.mul_comm ax.chunk]

theorem div_lt_ceilDiv {i n c : Nat} (hc : 0 < c) (hi : i < n) : i / c < ceilDiv n c := by
  rw [Nat.div_lt_iff_lt_mul hc]
  exact lt_of_lt_of_le hi (ceilDiv_mul hc)

/-- membership on a distributed axis is ownership by quotient -/
theorem mem_dist {ax : Axis} {r i : Nat} (hl : ax.isLocal = false) (hc : 0 < ax.chunk)
    (hm : 0 < ax.mesh) (hi : i < ax.size) :
    i ∈ localElements false ax r ↔
      r = (i / ax.chunk) / ceilDiv (ceilDiv ax.size ax.chunk) ax.mesh := by
  rw [mem_localElements hc]
  have hk := div_lt_ceilDiv hc hi
  have hb : 0 < ceilDiv (ceilDiv ax.size ax.chunk) ax.mesh := ceilDiv_pos (Nat.lt_of_le_of_lt (Nat.zero_le _) hk) hm
  simp only [startChunk, stopChunk, hl, Bool.false_and, Bool.false_eq_true, if_false]
  generalize i / ax.chunk = k at *
  generalize ceilDiv (ceilDiv ax.size ax.chunk) ax.mesh = B at *
  generalize ceilDiv ax.size ax.chunk = n at *
  have e : B * (r + 1) = B * r + B := by ring
  have e2 : r * B = B * r := Nat.mul_comm _ _
  have h1 : r ≤ k / B ↔ B * r ≤ k := by rw [Nat.le_div_iff_mul_le hb, e2]
  have h2 : k / B < r + 1 ↔ k < B * (r + 1) := by
    rw [Nat.div_lt_iff_lt_mul hb, Nat.mul_comm]
  constructor
  · rintro ⟨a, b⟩
    have : B * r ≤ k := by omega
    have : k < B * (r+1) := by omega
    have := h1.2 ‹_›; have := h2.2 ‹_›; omega
  · intro h
    have := h1.1 (by omega); have := h2.1 (by omega); omega

theorem owner_lt {ax : Axis} {i : Nat} (hc : 0 < ax.chunk)
    (hm : 0 < ax.mesh) (hi : i < ax.size) :
    (i / ax.chunk) / ceilDiv (ceilDiv ax.size ax.chunk) ax.mesh < ax.mesh := by
  have hk := div_lt_ceilDiv hc hi
  have hb : 0 < ceilDiv (ceilDiv ax.size ax.chunk) ax.mesh := ceilDiv_pos (Nat.lt_of_le_of_lt (Nat.zero_le _) hk) hm
  rw [Nat.div_lt_iff_lt_mul hb]
  have := ceilDiv_mul (a := ceilDiv ax.size ax.chunk) hm
  rw [Nat.mul_comm] at this
  omega

end Dedalus.Dist

namespace Dedalus.Dist

theorem foldl_min_range' (s n : Nat) : (List.range' (s+1) n).foldl min s = s := by
  have : ∀ (l : List Nat), (∀ x ∈ l, s ≤ x) → l.foldl min s = s := by
    intro l
    induction l with
    | nil => intro _; rfl
    | cons x xs ih =>
      intro h
      rw [List.foldl_cons, Nat.min_eq_left (h x (by simp))]
      exact ih (fun y hy => h y (by simp [hy]))
  apply this
  intro x hx
  rw [List.mem_range'_1] at hx; omega

theorem foldl_max_range' (s n : Nat) : (List.range' (s+1) n).foldl max s = s + n := by
  induction n generalizing s with
  | zero => rfl
  | succ n ih =>
    rw [List.range'_succ, List.foldl_cons, Nat.max_eq_right (by omega), ih]; omega

theorem layoutElements_cons_local {ls ks : List Bool} {k : Bool} {mesh ns cs coords : List Nat}
    {n c : Nat} {els : List (List Nat)}
    (h : layoutElements ls mesh ns cs ks false coords = some els) :
    layoutElements (true :: ls) mesh (n :: ns) (c :: cs) (k :: ks) false coords =
      some (localElements false ⟨true, n, c, 1, k⟩ 0 :: els) := by
  unfold layoutElements at h ⊢
  simp only [scatterNonlocal]
  rcases h1 : scatterNonlocal 1 ls mesh with _ | em
  · simp [h1] at h
  rcases h2 : scatterNonlocal 0 ls coords with _ | ec
  · simp [h1, h2] at h
  rcases h3 : axesOf ls ns cs em ks with _ | axs
  · simp [h1, h2, h3] at h
  simp [h1, h2, h3] at h
  simp [axesOf, h3, h]

theorem layoutElements_cons_local_inv {ls ks : List Bool} {k : Bool} {mesh ns cs coords : List Nat}
    {n c : Nat} {els : List (List Nat)}
    (h : layoutElements (true :: ls) mesh (n :: ns) (c :: cs) (k :: ks) false coords = some els) :
    ∃ e es, layoutElements ls mesh ns cs ks false coords = some es ∧ els = e :: es ∧
      e = localElements false ⟨true, n, c, 1, k⟩ 0 := by
  unfold layoutElements at h ⊢
  simp only [scatterNonlocal] at h
  rcases h1 : scatterNonlocal 1 ls mesh with _ | em
  · simp [h1] at h
  rcases h2 : scatterNonlocal 0 ls coords with _ | ec
  · simp [h1, h2] at h
  rcases h3 : axesOf ls ns cs em ks with _ | axs
  · simp [h1, h2, h3, axesOf] at h
  simp [h1, h2, h3, axesOf] at h
  exact ⟨_, _, by simp [h3], h.symm, rfl⟩

theorem layoutElements_cons_dist {ls ks : List Bool} {k : Bool} {mesh ns cs coords : List Nat}
    {n c m : Nat} {els : List (List Nat)} (r : Nat)
    (h : layoutElements ls mesh ns cs ks false coords = some els) :
    layoutElements (false :: ls) (m :: mesh) (n :: ns) (c :: cs) (k :: ks) false (r :: coords) =
      some (localElements false ⟨false, n, c, m, k⟩ r :: els) := by
  unfold layoutElements at h ⊢
  simp only [scatterNonlocal]
  rcases h1 : scatterNonlocal 1 ls mesh with _ | em
  · simp [h1] at h
  rcases h2 : scatterNonlocal 0 ls coords with _ | ec
  · simp [h1, h2] at h
  rcases h3 : axesOf ls ns cs em ks with _ | axs
  · simp [h1, h2, h3] at h
  simp [h1, h2, h3] at h
  simp [axesOf, h3, h]

theorem layoutElements_cons_dist_inv {ls ks : List Bool} {k : Bool} {mesh ns cs coords : List Nat}
    {n c m r : Nat} {els : List (List Nat)}
    (h : layoutElements (false :: ls) (m :: mesh) (n :: ns) (c :: cs) (k :: ks) false (r :: coords)
      = some els) :
    ∃ e es, layoutElements ls mesh ns cs ks false coords = some es ∧ els = e :: es ∧
      e = localElements false ⟨false, n, c, m, k⟩ r := by
  unfold layoutElements at h ⊢
  simp only [scatterNonlocal] at h
  rcases h1 : scatterNonlocal 1 ls mesh with _ | em
  · simp [h1] at h
  rcases h2 : scatterNonlocal 0 ls coords with _ | ec
  · simp [h1, h2] at h
  rcases h3 : axesOf ls ns cs em ks with _ | axs
  · simp [h1, h2, h3, axesOf] at h
  simp [h1, h2, h3, axesOf] at h
  exact ⟨_, _, by simp [h3], h.symm, rfl⟩

end Dedalus.Dist
