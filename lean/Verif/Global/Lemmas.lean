import Verif.Global.Spec
import Verif.Dist.BlockLemmas
import Verif.Dist.BlockProps

namespace Dedalus.Global
open Dedalus.Dist
variable {α : Type}

theorem inShape_iff : ∀ (idx sh : List Nat), inShape idx sh = true ↔ List.Forall₂ (· < ·) idx sh := by
  intro idx
  induction idx with
  | nil => intro sh; cases sh <;> simp [inShape]
  | cons i is ih => intro sh; cases sh <;> simp [inShape, ih]

/-! ### Axes -/

/-- A legal axis. -/
structure AxOK (ax : Axis) : Prop where
  chunk : 0 < ax.chunk
  dvd : ax.chunk ∣ ax.size
  mesh : 0 < ax.mesh
  loc : ax.isLocal = true → ax.mesh = 1

/-- First element and length of the run of one process. -/
def runStart (ax : Axis) (c : Nat) : Nat := ax.chunk * startChunk false ax c
def runLen (ax : Axis) (c : Nat) : Nat := ax.chunk * (stopChunk false ax c - startChunk false ax c)

theorem els_run (ax : Axis) (c : Nat) : localElements false ax c = List.range' (runStart ax c) (runLen ax c) :=
  localElements_eq false ax c

theorem runStart_zero (ax : Axis) : runStart ax 0 = 0 := by
  unfold runStart startChunk; split <;> simp

theorem runStart_succ {ax : Axis} (c : Nat) (h : c + 1 < ax.mesh) (hk : AxOK ax) :
    runStart ax (c+1) = runStart ax c + runLen ax c := by
  have hl : ax.isLocal = false := by
    by_contra hh
    have := hk.loc (by simpa using hh)
    omega
  unfold runStart runLen
  have hle := start_le_stop false ax c
  rw [← Nat.mul_add]
  congr 1
  have : startChunk false ax (c+1) = stopChunk false ax c := by
    simp [startChunk, stopChunk, hl]
  omega

theorem run_end {ax : Axis} (hk : AxOK ax) : runStart ax (ax.mesh - 1) + runLen ax (ax.mesh - 1) = ax.size := by
  unfold runStart runLen
  have hle := start_le_stop false ax (ax.mesh - 1)
  rw [← Nat.mul_add]
  have : startChunk false ax (ax.mesh - 1) + (stopChunk false ax (ax.mesh - 1) - startChunk false ax (ax.mesh - 1)) =
      ceilDiv ax.size ax.chunk := by
    rw [Nat.add_sub_cancel' hle]
    unfold stopChunk
    by_cases hl : ax.isLocal = true
    · simp [hl]
    · have hl : ax.isLocal = false := by simpa using hl
      simp only [hl, Bool.false_eq_true, if_false, Bool.false_and]
      have hm := hk.mesh
      rw [Nat.sub_add_cancel hm]
      apply Nat.min_eq_left
      exact ceilDiv_mul hm
  rw [this, Nat.mul_comm]
  exact ceilDiv_dvd hk.chunk hk.dvd

theorem runStart_sum {ax : Axis} (hk : AxOK ax) : ∀ c, c < ax.mesh →
    runStart ax c = ((List.range c).map (runLen ax)).sum := by
  intro c
  induction c with
  | zero => intro _; simp [runStart_zero]
  | succ c ih =>
    intro h
    rw [runStart_succ c h hk, ih (by omega), List.range_succ]; simp

theorem runLen_sum {ax : Axis} (hk : AxOK ax) : ((List.range ax.mesh).map (runLen ax)).sum = ax.size := by
  have hm := hk.mesh
  obtain ⟨m, hm'⟩ : ∃ m, ax.mesh = m + 1 := ⟨ax.mesh - 1, by omega⟩
  have h1 := run_end hk
  have h2 := runStart_sum hk (ax.mesh - 1) (by omega)
  rw [hm'] at h1 h2 ⊢
  rw [List.range_succ]
  simp only [List.map_append, List.sum_append, List.map_cons, List.map_nil, List.sum_cons, List.sum_nil]
  simp only [Nat.add_sub_cancel] at h1 h2
  omega

/-! ### Coordinates -/

theorem coordsList_length : ∀ ms : List Nat, (coordsList ms).length = ms.foldl (· * ·) 1 := by
  intro ms
  have h : ∀ (ms : List Nat) (a : Nat), ms.foldl (· * ·) a = a * ms.foldl (· * ·) 1 := by
    intro ms
    induction ms with
    | nil => simp
    | cons m ms ih => intro a; simp only [List.foldl_cons]; rw [ih (a*m), ih (1*m)]; rw [Nat.one_mul, Nat.mul_assoc]
  induction ms with
  | nil => rfl
  | cons m ms ih =>
    simp only [coordsList, List.length_flatMap, List.length_map, List.foldl_cons, Nat.one_mul]
    rw [h ms m, ih]
    simp

theorem mem_coordsList : ∀ (ms c : List Nat), c ∈ coordsList ms ↔ List.Forall₂ (· < ·) c ms := by
  intro ms
  induction ms with
  | nil => intro c; simp [coordsList]
  | cons m ms ih =>
    intro c
    simp only [coordsList, List.mem_flatMap, List.mem_range, List.mem_map]
    constructor
    · rintro ⟨i, hi, c', hc', rfl⟩
      exact List.Forall₂.cons hi ((ih c').1 hc')
    · intro h
      cases h with
      | cons h1 h2 => exact ⟨_, h1, _, (ih _).2 h2, rfl⟩

theorem coordsList_nodup : ∀ ms : List Nat, (coordsList ms).Nodup := by
  intro ms
  induction ms with
  | nil => simp [coordsList]
  | cons m ms ih =>
    simp only [coordsList]
    rw [List.Nodup, List.pairwise_flatMap]
    constructor
    · intro c _
      rw [List.pairwise_map]
      exact ih.imp (fun h => by simpa using h)
    · apply List.Pairwise.imp _ (List.nodup_range (n := m))
      intro a b hab
      intro x hx y hy
      simp only [List.mem_map] at hx hy
      obtain ⟨_, _, rfl⟩ := hx
      obtain ⟨_, _, rfl⟩ := hy
      intro h
      simp at h
      exact hab h.1

/-- Coordinates of the distributed axes only. -/
def reduceNL : List Bool → List Nat → List Nat
  | true :: ls, _ :: cs => reduceNL ls cs
  | false :: ls, c :: cs => c :: reduceNL ls cs
  | _, _ => []

theorem coords_bridge : ∀ (loc : List Bool) (mesh ext : List Nat), scatterNonlocal 1 loc mesh = some ext →
    coordsList mesh = (coordsList ext).map (reduceNL loc) ∧
    ∀ c ∈ coordsList ext, scatterNonlocal 0 loc (reduceNL loc c) = some c := by
  intro loc
  induction loc with
  | nil =>
    intro mesh ext h
    cases mesh <;> simp [scatterNonlocal] at h
    subst h
    simp [coordsList, reduceNL, scatterNonlocal]
  | cons l ls ih =>
    intro mesh ext h
    cases l with
    | true =>
      simp only [scatterNonlocal, Option.map_eq_some_iff] at h
      obtain ⟨ext', h1, rfl⟩ := h
      obtain ⟨i1, i2⟩ := ih mesh ext' h1
      constructor
      · rw [i1]; simp [coordsList, reduceNL, Function.comp_def]
      · intro c hc
        simp only [coordsList, List.mem_flatMap, List.mem_range, List.mem_map] at hc
        obtain ⟨i, hi, c', hc', rfl⟩ := hc
        have : i = 0 := by omega
        subst this
        simp [reduceNL, scatterNonlocal, i2 c' hc']
    | false =>
      cases mesh with
      | nil => simp [scatterNonlocal] at h
      | cons m ms =>
        simp only [scatterNonlocal, Option.map_eq_some_iff] at h
        obtain ⟨ext', h1, rfl⟩ := h
        obtain ⟨i1, i2⟩ := ih ms ext' h1
        constructor
        · simp [coordsList, i1, reduceNL, Function.comp_def, List.map_flatMap]
        · intro c hc
          simp only [coordsList, List.mem_flatMap, List.mem_range, List.mem_map] at hc
          obtain ⟨i, hi, c', hc', rfl⟩ := hc
          simp [reduceNL, scatterNonlocal, i2 c' hc']

/-- The axes of a distribution. -/
theorem axes_of_ok (d : Distn) (h : d.OK) : ∃ ext axs, scatterNonlocal 1 d.loc d.mesh = some ext ∧
    axesOf d.loc d.shape d.chunks ext d.constant = some axs ∧ (∀ ax ∈ axs, AxOK ax) ∧ axs.map (·.mesh) = ext ∧
    axs.map (·.size) = d.shape := by
  obtain ⟨loc, mesh, shape, chunks, constant, comps⟩ := d
  obtain ⟨h1, h2, h3, h4, h5⟩ := h
  simp only at h1 h2 h3 h4 h5 ⊢
  clear comps
  induction loc generalizing mesh shape chunks constant with
  | nil =>
    cases mesh with
    | nil =>
      cases shape with
      | nil => cases h3; cases constant with
        | nil => exact ⟨[], [], rfl, rfl, by simp, rfl, rfl⟩
        | cons => simp at h1
      | cons => simp at h2
    | cons => simp at h4
  | cons l ls ih =>
    cases constant with
    | nil => simp at h1
    | cons k ks =>
      cases h3 with
      | nil => simp at h2
      | cons hc ht =>
        rename_i c n cs ns
        cases l with
        | true =>
          obtain ⟨ext, axs, e1, e2, e3, e4, e5⟩ := ih mesh ns cs ks (by simpa using h1) (by simpa using h2) ht (by simpa using h4) h5
          refine ⟨1 :: ext, ⟨true, n, c, 1, k⟩ :: axs, by simp [scatterNonlocal, e1], by simp [axesOf, e2], ?_, by simp [e4], by simp [e5]⟩
          intro ax hax
          rcases List.mem_cons.1 hax with rfl | hax
          · exact ⟨hc.1, hc.2, by simp, fun _ => rfl⟩
          · exact e3 ax hax
        | false =>
          cases mesh with
          | nil => simp at h4
          | cons m ms =>
            obtain ⟨ext, axs, e1, e2, e3, e4, e5⟩ := ih ms ns cs ks (by simpa using h1) (by simpa using h2) ht (by simpa using h4)
              (fun x hx => h5 x (by simp [hx]))
            refine ⟨m :: ext, ⟨false, n, c, m, k⟩ :: axs, by simp [scatterNonlocal, e1], by simp [axesOf, e2], ?_, by simp [e4], by simp [e5]⟩
            intro ax hax
            rcases List.mem_cons.1 hax with rfl | hax
            · exact ⟨hc.1, hc.2, h5 m (by simp), fun h => by simp at h⟩
            · exact e3 ax hax

theorem els_of_ext (d : Distn) {ext : List Nat} {axs : List Axis} (h1 : scatterNonlocal 1 d.loc d.mesh = some ext)
    (h2 : axesOf d.loc d.shape d.chunks ext d.constant = some axs) {c : List Nat} (hc : c ∈ coordsList ext) :
    d.els (reduceNL d.loc c) = some (List.zipWith (localElements false) axs c) := by
  unfold Distn.els layoutElements
  rw [h1, (coords_bridge _ _ _ h1).2 c hc]
  simp only [h2, Option.map_some]

/-! ### Blocks -/

/-- Starts and lengths of the runs at given coordinates. -/
def starts (axs : List Axis) (c : List Nat) : List Nat := List.zipWith runStart axs c
def lens (axs : List Axis) (c : List Nat) : List Nat := List.zipWith runLen axs c

/-- Reading a concatenation of pieces that are consecutive parts of one array. -/
theorem concatGet_runs {T S : List Nat} {G : List Nat → Option α} (f : Nat → NDArr α) (len start : Nat → Nat) :
    ∀ (m c0 : Nat) (t j : List Nat) (i : Nat),
    (∀ c, c0 ≤ c → c < c0 + m → (f c).shape = T ++ len c :: S) →
    (∀ c, c0 ≤ c → c < c0 + m → ∀ i, i < len c → (f c).get (t ++ i :: j) = G (t ++ (start c + i) :: j)) →
    (∀ c, c0 ≤ c → c + 1 < c0 + m → start (c+1) = start c + len c) →
    t.length = T.length → i < ((List.range' c0 m).map len).sum →
    concatGet T.length ((List.range' c0 m).map f) (t ++ i :: j) = G (t ++ (start c0 + i) :: j) := by
  intro m
  induction m with
  | zero => intro c0 t j i _ _ _ _ hi; simp at hi
  | succ m ih =>
    intro c0 t j i hsh hget hst ht hi
    rw [List.range'_succ, List.map_cons, concatGet]
    have h0 : (f c0).shape = T ++ len c0 :: S := hsh c0 le_rfl (by omega)
    have hidx : (t ++ i :: j)[T.length]? = some i := by simp [← ht]
    have hsz : ((f c0).shape)[T.length]? = some (len c0) := by rw [h0]; simp
    rw [hidx, hsz]
    simp only [Option.bind_eq_bind, Option.bind_some]
    split_ifs with hlt
    · exact hget c0 le_rfl (by omega) i hlt
    · have hset : (t ++ i :: j).set T.length (i - len c0) = t ++ (i - len c0) :: j := by
        rw [← ht, List.set_append_right _ _ (le_refl _)]; simp
      rw [hset]
      rw [List.range'_succ, List.map_cons, List.sum_cons] at hi
      cases m with
      | zero => simp at hi; omega
      | succ m =>
        rw [ih (c0+1) t j (i - len c0) (fun c h1 h2 => hsh c (by omega) (by omega))
          (fun c h1 h2 => hget c (by omega) (by omega)) (fun c h1 h2 => hst c (by omega) (by omega)) ht
          (by omega)]
        rw [hst c0 le_rfl (by omega), show start c0 + len c0 + (i - len c0) = start c0 + i by omega]

theorem block_cons (axis m : Nat) (ms : List Nat) (p : List Nat → NDArr α) :
    block axis (m :: ms) ((coordsList (m :: ms)).map p) =
      ((List.range m).mapM fun k => block (axis + 1) ms ((coordsList ms).map fun c => p (k :: c))).bind (concat axis) := by
  rw [block]
  have hlen : ((coordsList (m :: ms)).map p).length = m * ms.foldl (· * ·) 1 := by
    rw [List.length_map, ← coordsList_length ms]
    simp [coordsList, List.length_flatMap]
  rw [if_pos hlen]
  congr 1
  have key : ∀ k, k < m → (((coordsList (m :: ms)).map p).drop (k * ms.foldl (· * ·) 1)).take (ms.foldl (· * ·) 1) =
      (coordsList ms).map fun c => p (k :: c) := by
    intro k hk
    rw [← coordsList_length ms]
    have hsplit : (coordsList (m :: ms)).map p =
        ((List.range k).flatMap fun c => (coordsList ms).map fun x => p (c :: x)) ++
        (((coordsList ms).map fun x => p (k :: x)) ++
        ((List.range' (k+1) (m - k - 1)).flatMap fun c => (coordsList ms).map fun x => p (c :: x))) := by
      have hr : List.range m = List.range k ++ (k :: List.range' (k+1) (m-k-1)) := by
        rw [List.range_eq_range', List.range_eq_range']
        have : m = k + ((m - k - 1) + 1) := by omega
        conv_lhs => rw [this]
        rw [← List.range'_append_1, List.range'_succ]; simp
      simp only [coordsList, hr, List.flatMap_append, List.flatMap_cons, List.map_append, List.map_map, List.map_flatMap]
      rfl
    rw [hsplit, List.drop_append_of_le_length (by simp [List.length_flatMap])]
    rw [List.drop_eq_nil_of_le (by simp [List.length_flatMap])]
    simp
  have : ∀ l : List Nat, (∀ k ∈ l, k < m) →
      (l.mapM fun k => block (axis + 1) ms ((((coordsList (m :: ms)).map p).drop (k * ms.foldl (· * ·) 1)).take (ms.foldl (· * ·) 1))) =
      (l.mapM fun k => block (axis + 1) ms ((coordsList ms).map fun c => p (k :: c))) := by
    intro l
    induction l with
    | nil => intro _; rfl
    | cons k l ih =>
      intro hl
      rw [List.mapM_cons, List.mapM_cons, key k (hl k (by simp)), ih (fun x hx => hl x (by simp [hx]))]
  exact this _ (fun k hk => List.mem_range.1 hk)

theorem mapM_some_map {β γ : Type} {f : β → Option γ} {g : β → γ} : ∀ (l : List β), (∀ x ∈ l, f x = some (g x)) →
    l.mapM f = some (l.map g) := by
  intro l
  induction l with
  | nil => intro _; rfl
  | cons x l ih =>
    intro h
    rw [List.mapM_cons, h x (by simp), ih (fun y hy => h y (by simp [hy]))]; rfl

theorem block_ok : ∀ (axs : List Axis), (∀ ax ∈ axs, AxOK ax) → ∀ (T : List Nat) (G : List Nat → Option α) (p : List Nat → NDArr α),
    (∀ c ∈ coordsList (axs.map (·.mesh)), (p c).shape = T ++ lens axs c ∧
      ∀ t idx, List.Forall₂ (· < ·) t T → List.Forall₂ (· < ·) idx (lens axs c) →
        (p c).get (t ++ idx) = G (t ++ List.zipWith (· + ·) (starts axs c) idx)) →
    ∃ b, block T.length (axs.map (·.mesh)) ((coordsList (axs.map (·.mesh))).map p) = some b ∧
      b.shape = T ++ axs.map (·.size) ∧
      ∀ t idx, List.Forall₂ (· < ·) t T → List.Forall₂ (· < ·) idx (axs.map (·.size)) → b.get (t ++ idx) = G (t ++ idx) := by
  intro axs
  induction axs with
  | nil =>
    intro _ T G p hp
    obtain ⟨h1, h2⟩ := hp [] (by simp [coordsList])
    refine ⟨p [], by simp [coordsList, block], by simpa [lens] using h1, ?_⟩
    intro t idx ht hi
    cases hi
    have := h2 t [] ht (by simp [lens])
    simpa [starts] using this
  | cons ax axs ih =>
    intro hok T G p hp
    have hax := hok ax (by simp)
    have hm := hax.mesh
    -- blocks for each coordinate along the first axis
    have hsub : ∀ c, c < ax.mesh → ∃ b, block (T.length + 1) (axs.map (·.mesh)) ((coordsList (axs.map (·.mesh))).map fun x => p (c :: x)) = some b ∧
        b.shape = T ++ runLen ax c :: axs.map (·.size) ∧
        ∀ t i idx, List.Forall₂ (· < ·) t T → i < runLen ax c → List.Forall₂ (· < ·) idx (axs.map (·.size)) →
          b.get (t ++ i :: idx) = G (t ++ (runStart ax c + i) :: idx) := by
      intro c hc
      obtain ⟨b, b1, b2, b3⟩ := ih (fun a ha => hok a (by simp [ha])) (T ++ [runLen ax c])
        (fun u => G (u.take T.length ++ (match u.drop T.length with | [] => [] | i :: r => (runStart ax c + i) :: r)))
        (fun x => p (c :: x)) (by
          intro x hx
          obtain ⟨h1, h2⟩ := hp (c :: x) (by
            rw [mem_coordsList] at hx ⊢
            exact List.Forall₂.cons hc hx)
          refine ⟨by rw [h1]; simp [lens], ?_⟩
          intro t idx ht hi
          obtain ⟨t', i, rfl⟩ : ∃ t' i, t = t' ++ [i] := by
            have : t ≠ [] := by intro h; subst h; have := ht.length_eq; simp at this
            exact ⟨t.dropLast, t.getLast this, (List.dropLast_append_getLast this).symm⟩
          have htl : t'.length = T.length := by have := ht.length_eq; simp at this; exact this
          have ht' : List.Forall₂ (· < ·) t' T ∧ i < runLen ax c := by
            rw [List.forall₂_iff_get] at ht
            constructor
            · rw [List.forall₂_iff_get]
              refine ⟨htl, fun k h1 h2 => ?_⟩
              have := ht.2 k (by simp; omega) (by simp; omega)
              simpa [List.getElem_append_left, h1, h2] using this
            · have := ht.2 T.length (by simp; omega) (by simp)
              simpa [← htl] using this
          have h4 := h2 t' (i :: idx) ht'.1 (by simp only [lens, List.zipWith_cons_cons]; exact List.Forall₂.cons ht'.2 hi)
          simp only [List.append_assoc, List.cons_append, List.nil_append]
          rw [h4]
          simp [starts, ← htl])
      refine ⟨b, by simpa using b1, by rw [b2]; simp, ?_⟩
      intro t i idx ht hi hidx
      have htl := ht.length_eq
      have := b3 (t ++ [i]) idx (by
        rw [List.forall₂_iff_get]
        rw [List.forall₂_iff_get] at ht
        refine ⟨by simp [htl], fun k h1 h2 => ?_⟩
        by_cases hk : k < T.length
        · have := ht.2 k (by omega) hk
          simpa [List.getElem_append_left, hk, htl] using this
        · simp only [List.length_append, List.length_cons, List.length_nil] at h2
          have : k = T.length := by omega
          subst this
          simpa [List.getElem_append_right, htl] using hi) hidx
      simp only [List.append_assoc, List.cons_append, List.nil_append] at this
      rw [this]
      simp [← htl]
    have : Nonempty (NDArr α) := ⟨⟨[], fun _ => none⟩⟩
    choose! B hB1 hB2 hB3 using hsub
    have hmap := mapM_some_map (f := fun k => block (T.length + 1) (axs.map (·.mesh)) ((coordsList (axs.map (·.mesh))).map fun c => p (k :: c)))
      (g := B) (List.range ax.mesh) (fun x hx => hB1 x (List.mem_range.1 hx))
    rw [List.map_cons, block_cons, hmap]
    simp only [Option.bind_some]
    obtain ⟨m, hm'⟩ : ∃ m, ax.mesh = m + 1 := ⟨ax.mesh - 1, by omega⟩
    have hhead : (List.range ax.mesh).map B = B 0 :: (List.range' 1 m).map B := by
      rw [hm', List.range_eq_range', List.range'_succ]; rfl
    have hB20 := hB2 0 hm
    have hset : ∀ c n, c < ax.mesh → (B c).shape.set T.length n = T ++ n :: axs.map (·.size) := by
      intro c n hc
      rw [hB2 c hc, List.set_append_right _ _ (le_refl _)]; simp
    have hcond : T.length < (B 0).shape.length ∧
        ((List.range ax.mesh).map B).all (fun q => q.shape.set T.length 0 == (B 0).shape.set T.length 0) = true := by
      refine ⟨by rw [hB20]; simp, ?_⟩
      simp only [List.all_map, List.all_eq_true, List.mem_range, Function.comp]
      intro c hc
      rw [hset c 0 hc, hset 0 0 hm]; simp
    have hsum : (((List.range ax.mesh).map B).map fun q => (q.shape[T.length]?).getD 0).sum = ax.size := by
      rw [← runLen_sum hax, List.map_map]
      congr 1
      apply List.map_congr_left
      intro c hc
      simp [hB2 c (List.mem_range.1 hc)]
    refine ⟨{ shape := (B 0).shape.set T.length ax.size, get := concatGet T.length ((List.range ax.mesh).map B) }, ?_, ?_, ?_⟩
    · unfold concat
      rw [hhead] at hcond hsum ⊢
      simp only
      rw [if_pos hcond, hsum]
    · simp only; rw [hset 0 _ hm]; simp
    · intro t idx ht hidx
      simp only [List.map_cons] at hidx
      cases hidx with
      | cons hi hr =>
        rename_i i idx
        simp only
        rw [List.range_eq_range']
        rw [concatGet_runs (G := G) (S := axs.map (·.size)) B (runLen ax) (runStart ax) ax.mesh 0 t idx i
          (fun c _ h => hB2 c (by omega)) (fun c _ h j hj => hB3 c (by omega) t j idx ht hj hr)
          (fun c _ h => runStart_succ c (by omega) hax) ht.length_eq
          (by rw [← List.range_eq_range', runLen_sum hax]; exact hi)]
        rw [runStart_zero, Nat.zero_add]

end Dedalus.Global
