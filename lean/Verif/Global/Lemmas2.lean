import Verif.Global.Lemmas

namespace Dedalus.Global
open Dedalus.Dist
variable {α : Type}

theorem coords_len {axs : List Axis} {c : List Nat} (hc : c ∈ coordsList (axs.map (·.mesh))) : c.length = axs.length := by
  rw [mem_coordsList] at hc
  simpa using hc.length_eq

theorem lens_eq (axs : List Axis) : ∀ c : List Nat, (List.zipWith (localElements false) axs c).map List.length = lens axs c := by
  induction axs with
  | nil => intro c; simp [lens]
  | cons ax axs ih =>
    intro c
    cases c with
    | nil => simp [lens]
    | cons c cs =>
      have := ih cs
      simp only [lens] at this ⊢
      simp [this, els_run]

theorem pairs_of_idx (axs : List Axis) : ∀ c idx : List Nat, List.Forall₂ (· < ·) idx (lens axs c) →
    ∃ ps : List (Nat × Nat), List.Forall₂ (fun e (p : Nat × Nat) => e[p.1]? = some p.2) (List.zipWith (localElements false) axs c) ps ∧
      ps.map Prod.fst = idx ∧ ps.map Prod.snd = List.zipWith (· + ·) (starts axs c) idx := by
  induction axs with
  | nil => intro c idx h; simp [lens] at h; subst h; exact ⟨[], by simp, rfl, by simp [starts]⟩
  | cons ax axs ih =>
    intro c idx h
    cases c with
    | nil => simp [lens] at h; subst h; exact ⟨[], by simp, rfl, by simp [starts]⟩
    | cons c cs =>
      simp only [lens, List.zipWith_cons_cons] at h
      cases h with
      | cons hi hr =>
        rename_i i idx
        obtain ⟨ps, p1, p2, p3⟩ := ih cs idx hr
        refine ⟨(i, runStart ax c + i) :: ps, ?_, by simp [p2], by simp [p3, starts]⟩
        simp only [List.zipWith_cons_cons]
        refine List.Forall₂.cons ?_ p1
        rw [els_run]
        simp only
        rw [List.getElem?_range' hi]; simp

theorem idx_of_pairs (axs : List Axis) : ∀ (c : List Nat) (ps : List (Nat × Nat)),
    List.Forall₂ (fun e (p : Nat × Nat) => e[p.1]? = some p.2) (List.zipWith (localElements false) axs c) ps →
    List.Forall₂ (· < ·) (ps.map Prod.fst) (lens axs c) ∧ ps.map Prod.snd = List.zipWith (· + ·) (starts axs c) (ps.map Prod.fst) := by
  induction axs with
  | nil => intro c ps h; simp at h; subst h; simp [lens, starts]
  | cons ax axs ih =>
    intro c ps h
    cases c with
    | nil => simp at h; subst h; simp [lens, starts]
    | cons c cs =>
      simp only [List.zipWith_cons_cons] at h
      cases h with
      | cons hi hr =>
        rename_i p ps
        obtain ⟨i1, i2⟩ := ih cs ps hr
        rw [els_run, List.getElem?_eq_some_iff] at hi
        obtain ⟨h1, h2⟩ := hi
        simp only [List.length_range'] at h1
        simp only [List.getElem_range', Nat.one_mul] at h2
        simp only [List.map_cons, lens, starts, List.zipWith_cons_cons]
        refine ⟨List.Forall₂.cons h1 i1, ?_⟩
        rw [h2]
        congr 1

/-- The local data of a process, in terms of runs. -/
theorem holds_iff (d : Distn) {ext : List Nat} {axs : List Axis} (h1 : scatterNonlocal 1 d.loc d.mesh = some ext)
    (h2 : axesOf d.loc d.shape d.chunks ext d.constant = some axs) {c : List Nat} (hc : c ∈ coordsList ext)
    (G a : NDArr α) : Holds d G (reduceNL d.loc c) a ↔
      (a.shape = d.comps ++ lens axs c ∧ ∀ t idx, List.Forall₂ (· < ·) t d.comps → List.Forall₂ (· < ·) idx (lens axs c) →
        a.get (t ++ idx) = G.get (t ++ List.zipWith (· + ·) (starts axs c) idx)) := by
  have he := els_of_ext d h1 h2 hc
  constructor
  · rintro ⟨els, e1, e2, e3⟩
    rw [he] at e1
    obtain rfl := Option.some.inj e1
    refine ⟨by rw [e2, lens_eq], fun t idx ht hi => ?_⟩
    obtain ⟨ps, p1, p2, p3⟩ := pairs_of_idx axs c idx hi
    have := e3 t ps ht p1
    rwa [p2, p3] at this
  · rintro ⟨e2, e3⟩
    refine ⟨_, he, by rw [e2, lens_eq], fun t ps ht hp => ?_⟩
    obtain ⟨i1, i2⟩ := idx_of_pairs axs c ps hp
    rw [i2]
    exact e3 t _ ht i1

theorem slice_mem (ax : Axis) (c i : Nat) : ((sliceOf (localElements false ax c)).1 ≤ i ∧ i < (sliceOf (localElements false ax c)).2) ↔
    (runStart ax c ≤ i ∧ i < runStart ax c + runLen ax c) := by
  have h := contiguous_run false ax c
  have h1 : i ∈ localElements false ax c ↔ (runStart ax c ≤ i ∧ i < runStart ax c + runLen ax c) := by
    rw [els_run, List.mem_range'_1]
  rw [← h1]
  conv_rhs => rw [h, List.mem_range'_1]
  omega

theorem slice_start (ax : Axis) (c : Nat) (h : 0 < runLen ax c) :
    sliceOf (localElements false ax c) = (runStart ax c, runStart ax c + runLen ax c) := by
  have h1 := (slice_mem ax c (runStart ax c)).2 ⟨le_rfl, by omega⟩
  have h2 := (slice_mem ax c (runStart ax c + runLen ax c - 1)).2 (by omega)
  have h3 := (slice_mem ax c (sliceOf (localElements false ax c)).1).1 (by omega)
  have h4 := (slice_mem ax c ((sliceOf (localElements false ax c)).2 - 1)).1 (by omega)
  ext <;> simp only <;> omega

theorem slice_len (ax : Axis) (c : Nat) :
    (sliceOf (localElements false ax c)).2 - (sliceOf (localElements false ax c)).1 = runLen ax c := by
  rcases Nat.eq_zero_or_pos (runLen ax c) with h | h
  · rw [els_run, h]; simp [sliceOf]
  · rw [slice_start ax c h]; simp

theorem run_le {ax : Axis} (hk : AxOK ax) {c : Nat} (hc : c < ax.mesh) : runStart ax c + runLen ax c ≤ ax.size := by
  rcases Nat.eq_zero_or_pos (runLen ax c) with h | h
  · rw [h, Nat.add_zero, runStart_sum hk c hc, ← runLen_sum hk]
    have : List.range ax.mesh = List.range c ++ List.range' c (ax.mesh - c) := by
      have := List.range'_append_1 (s := 0) (m := c) (n := ax.mesh - c)
      rw [List.range_eq_range', List.range_eq_range', Nat.zero_add] at *
      rw [this]; congr 1; omega
    rw [this]; simp
  · have := elements_in_range false ax hk.chunk hk.dvd c (runStart ax c + runLen ax c - 1) (by
      rw [els_run, List.mem_range'_1]; omega)
    omega

theorem slice_le {ax : Axis} (hk : AxOK ax) {c : Nat} (hc : c < ax.mesh) : (sliceOf (localElements false ax c)).2 ≤ ax.size := by
  rcases Nat.eq_zero_or_pos (runLen ax c) with h | h
  · rw [els_run, h]; simp [sliceOf]
  · rw [slice_start ax c h]; exact run_le hk hc

/-- Slices at given coordinates. -/
def slcs (axs : List Axis) (c : List Nat) : List (Nat × Nat) := (List.zipWith (localElements false) axs c).map sliceOf

theorem slcs_len (axs : List Axis) (c : List Nat) : (slcs axs c).map (fun s => s.2 - s.1) = lens axs c := by
  unfold slcs lens
  rw [List.map_map, List.map_zipWith]
  congr 1
  funext ax c
  exact slice_len ax c

theorem slcs_add (axs : List Axis) : ∀ c idx : List Nat, List.Forall₂ (· < ·) idx (lens axs c) →
    List.zipWith (fun s i => s.1 + i) (slcs axs c) idx = List.zipWith (· + ·) (starts axs c) idx := by
  induction axs with
  | nil => intro c idx _; simp [slcs, starts]
  | cons ax axs ih =>
    intro c idx h
    cases c with
    | nil => simp [slcs, starts]
    | cons c cs =>
      simp only [lens, List.zipWith_cons_cons] at h
      cases h with
      | cons hi hr =>
        have := ih cs _ hr
        simp only [slcs, starts] at this
        simp only [slcs, starts, List.zipWith_cons_cons, List.map_cons, this]
        rw [slice_start ax c (by omega)]

theorem slcs_le {axs : List Axis} (hk : ∀ ax ∈ axs, AxOK ax) : ∀ c, List.Forall₂ (· < ·) c (axs.map (·.mesh)) →
    (List.zip (slcs axs c) (axs.map (·.size))).all (fun p => decide (p.1.2 ≤ p.2)) = true := by
  induction axs with
  | nil => intro c _; simp [slcs]
  | cons ax axs ih =>
    intro c h
    simp only [List.map_cons] at h
    cases h with
    | cons h1 h2 =>
      have := ih (fun a ha => hk a (by simp [ha])) _ h2
      simp only [slcs] at this
      simp only [slcs, List.zipWith_cons_cons, List.map_cons, List.zip_cons_cons, List.all_cons, this, Bool.and_true, decide_eq_true_eq]
      exact slice_le (hk ax (by simp)) h1

/-- Being inside the slices. -/
theorem slcs_mem (axs : List Axis) : ∀ c idx : List Nat, c.length = axs.length → idx.length = axs.length →
    ((List.zip (slcs axs c) idx).all (fun p => decide (p.1.1 ≤ p.2) && decide (p.2 < p.1.2)) = true ↔
      List.Forall₂ (· ∈ ·) idx (List.zipWith (localElements false) axs c)) := by
  induction axs with
  | nil => intro c idx h1 h2; simp at h1 h2; subst h1; subst h2; simp [slcs]
  | cons ax axs ih =>
    intro c idx h1 h2
    cases c with
    | nil => simp at h1
    | cons c cs =>
      cases idx with
      | nil => simp at h2
      | cons i idx =>
        have h3 := ih cs idx (by simpa using h1) (by simpa using h2)
        simp only [slcs] at h3
        simp only [slcs, List.zipWith_cons_cons, List.map_cons, List.zip_cons_cons, List.all_cons, Bool.and_eq_true,
          decide_eq_true_eq, List.forall₂_cons] at h3 ⊢
        rw [h3, slice_mem, els_run, List.mem_range'_1]

/-- Inside the slices, the local position. -/
theorem slcs_sub (axs : List Axis) : ∀ c idx : List Nat, List.Forall₂ (· ∈ ·) idx (List.zipWith (localElements false) axs c) →
    List.Forall₂ (· < ·) (List.zipWith (fun s i => i - s.1) (slcs axs c) idx) (lens axs c) ∧
    List.zipWith (· + ·) (starts axs c) (List.zipWith (fun s i => i - s.1) (slcs axs c) idx) = idx := by
  induction axs with
  | nil => intro c idx h; simp at h; subst h; simp [slcs, starts, lens]
  | cons ax axs ih =>
    intro c idx h
    cases c with
    | nil => simp at h; subst h; simp [slcs, starts, lens]
    | cons c cs =>
      simp only [List.zipWith_cons_cons] at h
      cases h with
      | cons hi hr =>
        obtain ⟨i1, i2⟩ := ih cs _ hr
        rw [els_run, List.mem_range'_1] at hi
        have hs := slice_start ax c (by omega)
        simp only [slcs, lens, starts] at i1 i2 ⊢
        simp only [List.zipWith_cons_cons, List.map_cons, hs, i2]
        refine ⟨List.Forall₂.cons (by omega) i1, ?_⟩
        congr 1; omega

theorem forall₂_append_split {R : Nat → Nat → Prop} {idx A B : List Nat} (h : List.Forall₂ R idx (A ++ B)) :
    ∃ t j, idx = t ++ j ∧ List.Forall₂ R t A ∧ List.Forall₂ R j B := by
  induction A generalizing idx with
  | nil => exact ⟨[], idx, rfl, .nil, h⟩
  | cons a A ih =>
    simp only [List.cons_append] at h
    cases h with
    | cons h1 h2 =>
      obtain ⟨t, j, rfl, h3, h4⟩ := ih h2
      exact ⟨_ :: t, j, rfl, .cons h1 h3, h4⟩

theorem forall₂_append {R : Nat → Nat → Prop} {t j A B : List Nat} (h1 : List.Forall₂ R t A) (h2 : List.Forall₂ R j B) :
    List.Forall₂ R (t ++ j) (A ++ B) := by
  induction h1 with
  | nil => exact h2
  | cons h _ ih => exact .cons h ih

/-- A sum with one nonzero term. -/
theorem foldl_add_one [AddMonoid α] {β : Type} [DecidableEq β] (x : β) (g : α) : ∀ (l : List β) (a : α), l.Nodup →
    l.foldl (fun s c => s + (if c = x then g else 0)) a = if x ∈ l then a + g else a := by
  intro l
  induction l with
  | nil => intro a _; simp
  | cons y l ih =>
    intro a hn
    rw [List.nodup_cons] at hn
    simp only [List.foldl_cons]
    rw [ih _ hn.2]
    by_cases h : y = x
    · subst h
      simp [hn.1]
    · simp [h, Ne.symm h]

theorem foldl_addArr [Add α] {β : Type} (idx : List Nat) (buf : β → NDArr α) (v : β → α) :
    ∀ (cs : List β) (b : NDArr α) (s : α), b.get idx = some s → (∀ c ∈ cs, (buf c).get idx = some (v c)) →
    ((cs.map buf).foldl addArr b).get idx = some (cs.foldl (fun s c => s + v c) s) ∧
      ((cs.map buf).foldl addArr b).shape = b.shape := by
  intro cs
  induction cs with
  | nil => intro b s h _; exact ⟨h, rfl⟩
  | cons x cs ih =>
    intro b s h hx
    simp only [List.map_cons, List.foldl_cons]
    have := ih (addArr b (buf x)) (s + v x) (by simp [addArr, h, hx x (by simp)]) (fun y hy => hx y (by simp [hy]))
    exact ⟨this.1, this.2⟩

theorem foldl_addArr_shape [Add α] : ∀ (bs : List (NDArr α)) (b : NDArr α), (bs.foldl addArr b).shape = b.shape := by
  intro bs
  induction bs with
  | nil => intro b; rfl
  | cons x bs ih => intro b; simp only [List.foldl_cons]; rw [ih]; rfl

/-- With one process every axis has one coordinate. -/
theorem one_rank : ∀ axs : List Axis, (coordsList (axs.map (·.mesh))).length = 1 → (∀ ax ∈ axs, ax.mesh = 1) := by
  intro axs
  induction axs with
  | nil => intro _ ax h; simp at h
  | cons ax axs ih =>
    intro h a ha
    simp only [List.map_cons, coordsList, List.length_flatMap, List.length_map, List.map_const', List.sum_replicate_nat,
      List.length_range] at h
    have h := And.intro (Nat.eq_one_of_mul_eq_one_right h) (Nat.eq_one_of_mul_eq_one_left h)
    rcases List.mem_cons.1 ha with rfl | ha
    · exact h.1
    · exact ih h.2 a ha

theorem one_rank_runs : ∀ axs : List Axis, (∀ ax ∈ axs, AxOK ax) → (∀ ax ∈ axs, ax.mesh = 1) → ∀ c,
    List.Forall₂ (· < ·) c (axs.map (·.mesh)) → lens axs c = axs.map (·.size) ∧
    ∀ idx, List.Forall₂ (· < ·) idx (axs.map (·.size)) → List.zipWith (· + ·) (starts axs c) idx = idx := by
  intro axs
  induction axs with
  | nil => intro _ _ c _; refine ⟨by simp [lens], fun idx h => ?_⟩; simp at h; simp [h, starts]
  | cons ax axs ih =>
    intro hk hm c hc
    simp only [List.map_cons] at hc
    cases hc with
    | cons h1 h2 =>
      rename_i c cs
      have hm1 := hm ax (by simp)
      have : c = 0 := by omega
      subst this
      obtain ⟨i1, i2⟩ := ih (fun a ha => hk a (by simp [ha])) (fun a ha => hm a (by simp [ha])) cs h2
      have hl := runLen_sum (hk ax (by simp))
      rw [hm1] at hl
      simp at hl
      refine ⟨?_, fun idx hidx => ?_⟩
      · simp only [lens] at i1 ⊢
        simp [i1, hl]
      · simp only [List.map_cons] at hidx
        cases hidx with
        | cons _ hr =>
          have := i2 _ hr
          simp only [starts] at this ⊢
          simp [this, runStart_zero]

end Dedalus.Global
