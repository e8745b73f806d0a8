import Mathlib.Analysis.Calculus.Deriv.Pow
import Mathlib.Tactic.NormNum
import Verif.Cart.Lemmas

/-!
# C75: Cartesian vector calculus is exact

`Stands S F o` says that the operand `o` has signature `S`, that its components are the functions `F idx`, and that these do not depend
on the coordinates along which `o` has no basis. `Rep S F p` is the same for a Python value, which may also be the number 0.
-/

namespace Dedalus.Cart

variable {K : Type} [RCLike K]

theorem independent_pd_self {a b : Nat} {f : (Nat → ℝ) → K} (h : Spec.Independent b f) : Spec.Independent b (Spec.pd a f) := by
  by_cases e : b = a
  · subst e
    rw [pd_independent h]
    intro x t; rfl
  · exact independent_pd h e

/-- Every component of the gradient is the partial derivative along the coordinate of the new first index, for tensors of any rank,
whether or not the operand has a basis along it. -/
theorem gradient_exact {S : List CS} {F : List Nat → (Nat → ℝ) → K} {o : Opd K} (h : Stands S F o) (cs : CS) :
    Stands (cs :: S) (fun idx => match idx with | [] => fun _ => 0 | i :: idx => Spec.pd (cs.start + i) (F idx)) (gradient cs o) := by
  refine ⟨by simp [gradient, h.sig], fun idx hidx => ?_, fun a ha idx hidx => ?_⟩
  · cases idx with
    | nil => exact absurd (fits_length hidx) (by simp)
    | cons i idx =>
      rw [fits_cons] at hidx
      simp only [gradient]
      rw [if_pos hidx.1]
      have hr := rep_differentiate (cs.start + i) (show Rep S F (.opd o) from h)
      revert hr
      cases differentiate (cs.start + i) (.opd o) with
      | zero =>
        intro hr
        have := hr idx hidx.2
        beta_reduce at this
        simp only [h.value idx hidx.2, Option.map_some, this]
      | opd d => intro hr; exact hr.value idx hidx.2
  · cases idx with
    | nil => exact absurd (fits_length hidx) (by simp)
    | cons i idx => exact independent_pd_self (h.const a ha idx (fits_cons.1 hidx).2)

/-- The divergence over the first index is the sum of the partial derivatives of the components, for tensors of any rank; the number 0
is returned if the operand is constant along all coordinates of the index. -/
theorem divergence_partial {cs : CS} {S : List CS} {F : List Nat → (Nat → ℝ) → K} {o : Opd K} (h : Stands (cs :: S) F o) :
    ∃ r, divergence 0 o = some r ∧ Rep S (fun idx => Spec.div cs.start cs.dim fun i => F (i :: idx)) r ∧
      (r = .zero ↔ ∀ i < cs.dim, o.basis (cs.start + i) = false) := by
  have hcs : o.sig[0]? = some cs := by simp [h.sig]
  obtain ⟨r, e, hr, hz⟩ := rep_foldl cs.dim (fun i idx => Spec.pd (cs.start + i) (F (i :: idx)))
    (fun i => differentiate (cs.start + i) (.opd (component 0 i o)))
    (fun i hi => rep_differentiate _ (show Rep S _ (.opd (component 0 i o)) from stands_component h i hi))
  simp only [differentiate_zero] at hz
  have hz' : r = .zero ↔ ∀ i < cs.dim, o.basis (cs.start + i) = false := hz
  unfold divergence
  simp only [hcs, Option.bind_eq_bind, Option.bind_some]
  by_cases hb : ∀ i < cs.dim, o.basis (cs.start + i) = false
  · rw [if_pos (by simpa using hb)]
    refine ⟨.zero, rfl, ?_, by simpa using hb⟩
    rw [hz'.2 hb] at hr
    exact hr
  · rw [if_neg (by simpa using hb), e]
    cases r with
    | zero => exact absurd (hz'.1 rfl) hb
    | opd d => exact ⟨.opd d, rfl, hr, by simpa using hb⟩

/-- The Laplacian, for tensors of any rank, when the coordinate system is given or the operand depends on one of its coordinates. -/
theorem laplacian_partial {S : List CS} {F : List Nat → (Nat → ℝ) → K} {o : Opd K} (h : Stands S F o) (cs : CS) (given : Bool)
    (hg : given = true ∨ ∃ i < cs.dim, o.basis (cs.start + i) = true) :
    ∃ r, laplacian given cs o = some r ∧ Rep S (fun idx => Spec.lap cs.start cs.dim (F idx)) r ∧
      (r = .zero ↔ ∀ i < cs.dim, o.basis (cs.start + i) = false) := by
  obtain ⟨r, e, hr, hz⟩ := rep_foldl cs.dim (fun i idx => Spec.pd (cs.start + i) (Spec.pd (cs.start + i) (F idx)))
    (fun i => differentiate (cs.start + i) (differentiate (cs.start + i) (.opd o)))
    (fun i _ => rep_differentiate _ (rep_differentiate _ (show Rep S F (.opd o) from h)))
  have hz' : r = .zero ↔ ∀ i < cs.dim, o.basis (cs.start + i) = false := by
    rw [hz]
    refine forall₂_congr fun i _ => ?_
    by_cases hb : o.basis (cs.start + i) = true
    · simp [differentiate, hb]
    · simp [differentiate, hb]
  unfold laplacian
  by_cases hb : ∀ i < cs.dim, o.basis (cs.start + i) = false
  · have hgt : given = true := by
      rcases hg with hg | ⟨i, hi, hb'⟩
      · exact hg
      · exact absurd (hb i hi) (by simp [hb'])
    rw [if_pos ⟨hgt, by simpa using hb⟩]
    refine ⟨.zero, rfl, ?_, by simpa using hb⟩
    rw [hz'.2 hb] at hr
    exact hr
  · rw [if_neg (fun c => hb (by simpa using c.2))]
    unfold cartesianLaplacian
    rw [e]
    cases r with
    | zero => exact absurd (hz'.1 rfl) hb
    | opd d => exact ⟨.opd d, rfl, hr, by simpa using hb⟩

/-- The Laplacian of a constant raises when the coordinate system is not given, although it is 0 when the same system is given. -/
theorem laplacian_constant_refuted (S : List CS) (F : List Nat → (Nat → ℝ) → K) (cs : CS) :
    ∃ o : Opd K, o.sig = S ∧ laplacian false cs o = none ∧ laplacian true cs o = some .zero := by
  refine ⟨⟨S, fun _ => false, fun idx => some (F idx)⟩, rfl, ?_, ?_⟩
  · unfold laplacian cartesianLaplacian
    have : sum ((List.range cs.dim).map fun i => differentiate (cs.start + i) (differentiate (cs.start + i) (.opd ⟨S, fun _ => false, fun idx => some (F idx)⟩))) = some .zero := by
      have hd : ∀ i, differentiate (cs.start + i) (differentiate (cs.start + i) (.opd (⟨S, fun _ => false, fun idx => some (F idx)⟩ : Opd K))) = .zero := by
        intro i; simp [differentiate]
      simp only [hd]
      unfold sum
      generalize cs.dim = n
      induction n with
      | zero => rfl
      | succ n ih => rw [List.range_succ, List.map_append, List.foldlM_append, ih]; rfl
    rw [this]
    simp [operand]
  · unfold laplacian
    rw [if_pos (by simp)]

/-- The Laplacian is the divergence of the gradient. -/
theorem laplacian_divergence_gradient {S : List CS} {F : List Nat → (Nat → ℝ) → K} {o : Opd K} (h : Stands S F o) (cs : CS) :
    ∃ r, laplacian true cs o = some r ∧ ∃ r', divergence 0 (gradient cs o) = some r' ∧ ∃ G, Rep S G r ∧ Rep S G r' := by
  obtain ⟨r, e, hr, -⟩ := laplacian_partial h cs true (Or.inl rfl)
  obtain ⟨r', e', hr', -⟩ := divergence_partial (gradient_exact h cs)
  exact ⟨r, e, r', e', _, hr, hr'⟩

/-- The curl over the first index of a tensor: its components are those of the curl of the vectors along this index (with opposite sign
in left-handed coordinates), and the index of the curl is the last one of the result. For vectors this is the curl. -/
theorem curl_partial {cs : CS} {S : List CS} {F : List Nat → (Nat → ℝ) → K} {o : Opd K} (h : Stands (cs :: S) F o) (hd : cs.dim = 3)
    (hb : ∃ i < 3, o.basis (cs.start + i) = true) :
    ∃ r, curl 0 o = some r ∧ r.sig = S ++ [cs] ∧ ∀ idx, Fits S idx → ∀ i < 3,
      r.value (idx ++ [i]) = some fun x => (if cs.right then 1 else -1) * Spec.curl cs.start (fun k => F (k :: idx)) i x := by
  have hcs : o.sig[0]? = some cs := by simp [h.sig]
  have hc : ∀ k < 3, Rep S (fun idx => F (k :: idx)) (.opd (component 0 k o)) := fun k hk => stands_component h k (by omega)
  have z : ∀ a k, differentiate (cs.start + a) (.opd (component 0 k o)) = .zero ↔ o.basis (cs.start + a) = false := fun a k => differentiate_zero _
  obtain ⟨rx, ex, hx, zx⟩ := rep_sub (rep_differentiate (cs.start + 1) (hc 2 (by omega))) (rep_differentiate (cs.start + 2) (hc 1 (by omega)))
  obtain ⟨ry, ey, hy, zy⟩ := rep_sub (rep_differentiate (cs.start + 2) (hc 0 (by omega))) (rep_differentiate (cs.start + 0) (hc 2 (by omega)))
  obtain ⟨rz, ez, hz, zz⟩ := rep_sub (rep_differentiate (cs.start + 0) (hc 1 (by omega))) (rep_differentiate (cs.start + 1) (hc 0 (by omega)))
  rw [z, z] at zx zy zz
  obtain ⟨mx, nx⟩ := rep_mul_unit hx cs 0
  obtain ⟨my, ny⟩ := rep_mul_unit hy cs 1
  obtain ⟨mz, nz⟩ := rep_mul_unit hz cs 2
  obtain ⟨s, es, hs, zs⟩ := rep_add mx my
  obtain ⟨t, et, ht, zt⟩ := rep_add hs mz
  have hne : t ≠ .zero := by
    intro c
    rw [zt, zs, nx, ny, nz, zx, zy, zz] at c
    obtain ⟨i, hi, hi'⟩ := hb
    have : i = 0 ∨ i = 1 ∨ i = 2 := by omega
    obtain ⟨⟨⟨c1, c2⟩, -, c0⟩, -⟩ := c
    rcases this with rfl | rfl | rfl
    · rw [hi'] at c0; cases c0
    · rw [hi'] at c1; cases c1
    · rw [hi'] at c2; cases c2
  have hcurl : curl 0 o = operand (if ¬ cs.right then neg t else t) := by
    unfold curl
    simp only [hcs, Option.bind_eq_bind, Option.bind_some, hd, ne_eq, not_true_eq_false, if_false, ex, ey, ez, es, et]
  have hval : ∀ idx, Fits S idx → ∀ i < 3, ∀ x,
      (((Spec.pd (cs.start + 1) (F (2 :: List.take S.length (idx ++ [i]))) x - Spec.pd (cs.start + 2) (F (1 :: List.take S.length (idx ++ [i]))) x) *
          if (idx ++ [i])[S.length]? = some 0 then 1 else 0) +
        (Spec.pd (cs.start + 2) (F (0 :: List.take S.length (idx ++ [i]))) x - Spec.pd (cs.start + 0) (F (2 :: List.take S.length (idx ++ [i]))) x) *
          if (idx ++ [i])[S.length]? = some 1 then 1 else 0) +
        ((Spec.pd (cs.start + 0) (F (1 :: List.take S.length (idx ++ [i]))) x - Spec.pd (cs.start + 1) (F (0 :: List.take S.length (idx ++ [i]))) x) *
          if (idx ++ [i])[S.length]? = some 2 then 1 else 0) = Spec.curl cs.start (fun k => F (k :: idx)) i x := by
    intro idx hidx i hi x
    rw [List.take_left' (fits_length hidx), ← fits_length hidx]
    have : i = 0 ∨ i = 1 ∨ i = 2 := by omega
    rcases this with rfl | rfl | rfl <;> simp [Spec.curl]
  cases t with
  | zero => exact absurd rfl hne
  | opd d =>
    by_cases hr : cs.right = true
    · refine ⟨d, by rw [hcurl, if_neg (by simp [hr])]; rfl, ht.sig, fun idx hidx i hi => ?_⟩
      rw [ht.value _ (fits_append hidx (by omega))]
      congr 1
      funext x
      rw [if_pos hr, one_mul]
      exact hval idx hidx i hi x
    · have hn := rep_neg ht
      refine ⟨_, by rw [hcurl, if_pos (by simp [hr])]; rfl, hn.sig, fun idx hidx i hi => ?_⟩
      rw [hn.value _ (fits_append hidx (by omega))]
      congr 1
      funext x
      rw [if_neg hr, neg_one_mul]
      exact congrArg Neg.neg (hval idx hidx i hi x)

/-- The curl of a constant vector field raises instead of being 0. -/
theorem curl_constant_refuted : ∃ o : Opd ℝ, Stands [⟨0, 3, true⟩] (fun _ _ => 1) o ∧ curl 0 o = none := by
  refine ⟨⟨[⟨0, 3, true⟩], fun _ => false, fun _ => some fun _ => 1⟩, ⟨rfl, fun _ _ => rfl, fun _ _ _ _ _ _ => rfl⟩, ?_⟩
  simp [curl, differentiate, component, sub, add, neg, mul, operand]

/-- The curl over the first index of a tensor with a second index puts the index of the curl behind it: the signature is not the one of the
operand. -/
theorem curl_tensor_refuted : ∃ (o r : Opd ℝ), o.sig = [⟨0, 3, true⟩, ⟨3, 2, true⟩] ∧ (∀ a, o.basis a = true) ∧ curl 0 o = some r ∧
    r.sig = [⟨3, 2, true⟩, ⟨0, 3, true⟩] := by
  have h : Stands [⟨0, 3, true⟩, ⟨3, 2, true⟩] (fun _ _ => (1 : ℝ)) ⟨[⟨0, 3, true⟩, ⟨3, 2, true⟩], fun _ => true, fun _ => some fun _ => 1⟩ :=
    ⟨rfl, fun _ _ => rfl, fun _ _ _ _ _ _ => rfl⟩
  obtain ⟨r, e, hs, -⟩ := curl_partial h rfl ⟨0, by omega, rfl⟩
  exact ⟨_, r, rfl, fun _ => rfl, e, hs⟩

/-- The divergence over the second index takes the components along the first one: for the matrix whose only element is `y`, in the
second row and first column, the first row has divergence 0, and 1 is returned. -/
theorem divergence_index_refuted : ∃ (o r : Opd ℝ) (F : List Nat → (Nat → ℝ) → ℝ), Stands [⟨0, 2, true⟩, ⟨0, 2, true⟩] F o ∧
    divergence 1 o = some (.opd r) ∧ ∃ u, r.value [0] = some u ∧ u ≠ Spec.div 0 2 fun k => F [0, k] := by
  let F : List Nat → (Nat → ℝ) → ℝ := fun idx x => if idx = [1, 0] then x 1 else 0
  let o : Opd ℝ := ⟨[⟨0, 2, true⟩, ⟨0, 2, true⟩], fun _ => true, fun idx => some (F idx)⟩
  have hval : ∀ k < 2, (component 1 k o).value [0] = some (F [k, 0]) := by
    intro k hk
    interval_cases k <;> rfl
  refine ⟨o, ⟨[⟨0, 2, true⟩], fun _ => true, fun idx => ?_⟩, F, ⟨rfl, fun _ _ => rfl, fun a ha => absurd ha (by simp [o])⟩, ?_, ?_⟩
  · exact (((component 1 0 o).value idx).map (along 0)).bind fun u => (((component 1 1 o).value idx).map (along 1)).map fun v x => u x + v x
  · rfl
  · refine ⟨fun x => along 0 (F [0, 0]) x + along 1 (F [1, 0]) x, ?_, ?_⟩
    · simp only [hval 0 (by omega), hval 1 (by omega), Option.map_some, Option.bind_some]
    · intro c
      have := congrFun c 0
      simp [along, Spec.div, Spec.pd, F, Finset.sum_range_succ] at this

/-! ## Direct products of straight coordinate systems -/

/-- The factors fill the axes from `s` on. -/
def Aligned : Nat → List CS → Prop
  | _, [] => True
  | s, p :: parts => p.start = s ∧ Aligned (s + p.dim) parts

theorem locate_spec (parts : List CS) : ∀ (s i : Nat), Aligned s parts → i < (parts.map CS.dim).sum →
    ∃ p k, locate parts i = some (p, k) ∧ k < p.dim ∧ p.start + k = s + i := by
  induction parts with
  | nil => intro s i _ hi; simp at hi
  | cons p parts ih =>
    intro s i ha hi
    unfold locate
    by_cases h : i < p.dim
    · exact ⟨p, i, if_pos h, h, by rw [ha.1]⟩
    · obtain ⟨q, k, e, hk, hs⟩ := ih (s + p.dim) (i - p.dim) ha.2 (by simp at hi; omega)
      exact ⟨q, k, by rw [if_neg h]; exact e, hk, by omega⟩

/-- The gradient in a direct product of straight systems has the partial derivatives along all coordinates as components. -/
theorem gradient_product {S : List CS} {F : List Nat → (Nat → ℝ) → K} {o : Opd K} (h : Stands S F o) (cs : CS) (parts : List CS)
    (ha : Aligned cs.start parts) (hd : cs.dim = (parts.map CS.dim).sum) :
    Stands (cs :: S) (fun idx => match idx with | [] => fun _ => 0 | i :: idx => Spec.pd (cs.start + i) (F idx)) (productGradient cs parts o) := by
  refine ⟨by simp [productGradient, h.sig], fun idx hidx => ?_, fun a hba idx hidx => ?_⟩
  · cases idx with
    | nil => exact absurd (fits_length hidx) (by simp)
    | cons i idx =>
      rw [fits_cons] at hidx
      obtain ⟨p, k, e, hk, hs⟩ := locate_spec parts cs.start i ha (by omega)
      simp only [productGradient, e, Option.bind_some]
      rw [(gradient_exact h p).value _ (fits_cons.2 ⟨hk, hidx.2⟩)]
      simp only [hs]
  · cases idx with
    | nil => exact absurd (fits_length hidx) (by simp)
    | cons i idx => exact independent_pd_self (h.const a hba idx (fits_cons.1 hidx).2)

theorem rep_list {S : List CS} : ∀ (l : List ((List Nat → (Nat → ℝ) → K) × Py K)) (G : List Nat → (Nat → ℝ) → K) (acc : Py K), Rep S G acc → (∀ p ∈ l, Rep S p.1 p.2) →
    ∃ r, (l.map Prod.snd).foldlM (fun acc p => add acc p) acc = some r ∧ Rep S (fun idx x => G idx x + (l.map fun p => p.1 idx x).sum) r ∧
      (r = .zero ↔ acc = .zero ∧ ∀ p ∈ l, p.2 = .zero) := by
  intro l
  induction l with
  | nil => intro G acc hG _; exact ⟨acc, rfl, hG.congr fun idx _ => by simp, by simp⟩
  | cons p l ih =>
    intro G acc hG hl
    obtain ⟨q, e, hq, hz⟩ := rep_add hG (hl p (by simp))
    obtain ⟨r, e', hr, hz'⟩ := ih _ q hq fun p' hp => hl p' (by simp [hp])
    refine ⟨r, ?_, hr.congr fun idx _ => ?_, ?_⟩
    · rw [List.map_cons, List.foldlM_cons, e]; exact e'
    · funext x; rw [List.map_cons, List.sum_cons, add_assoc]
    · rw [hz', hz]; simp [and_assoc]

theorem rep_sum {S : List CS} (l : List ((List Nat → (Nat → ℝ) → K) × Py K)) (hl : ∀ p ∈ l, Rep S p.1 p.2) :
    ∃ r, sum (l.map Prod.snd) = some r ∧ Rep S (fun idx x => (l.map fun p => p.1 idx x).sum) r ∧ (r = .zero ↔ ∀ p ∈ l, p.2 = .zero) := by
  obtain ⟨r, e, hr, hz⟩ := rep_list l (fun _ _ => 0) .zero (fun _ _ => rfl) hl
  exact ⟨r, e, hr.congr fun idx _ => by funext x; rw [zero_add], by rw [hz]; simp⟩

/-- What the operations on the factors give, one by one. -/
theorem map_factors {S : List CS} (op : CS → Option (Py K)) (G : CS → List Nat → (Nat → ℝ) → K) (Z : CS → Prop) : ∀ parts : List CS,
    (∀ p ∈ parts, ∃ r, op p = some r ∧ Rep S (G p) r ∧ (r = .zero ↔ Z p)) →
    ∃ l : List ((List Nat → (Nat → ℝ) → K) × Py K), parts.mapM op = some (l.map Prod.snd) ∧ l.map Prod.fst = parts.map G ∧ (∀ p ∈ l, Rep S p.1 p.2) ∧
      ((∀ p ∈ l, p.2 = .zero) ↔ ∀ p ∈ parts, Z p) := by
  intro parts
  induction parts with
  | nil => intro _; exact ⟨[], rfl, rfl, by simp, by simp⟩
  | cons p parts ih =>
    intro h
    obtain ⟨r, e, hr, hz⟩ := h p (by simp)
    obtain ⟨l, e', hf, hl, hz'⟩ := ih fun q hq => h q (by simp [hq])
    refine ⟨(G p, r) :: l, ?_, by simp [hf], ?_, ?_⟩
    · rw [List.mapM_cons, e, e']; rfl
    · intro q hq
      rcases List.mem_cons.1 hq with rfl | hq
      exacts [hr, hl q hq]
    · rw [List.forall_mem_cons, List.forall_mem_cons]
      exact and_congr hz hz'

theorem aligned_sum (f : Nat → K) : ∀ (parts : List CS) (s n : Nat), Aligned s parts → n = (parts.map CS.dim).sum →
    (parts.map fun p => ∑ i ∈ Finset.range p.dim, f (p.start + i)).sum = ∑ i ∈ Finset.range n, f (s + i) := by
  intro parts
  induction parts with
  | nil => intro s n _ hn; simp at hn; simp [hn]
  | cons p parts ih =>
    intro s n ha hn
    rw [List.map_cons, List.sum_cons, ih (s + p.dim) (n - p.dim) ha.2 (by simp at hn; omega), ha.1]
    have : n = p.dim + (n - p.dim) := by simp at hn; omega
    conv_rhs => rw [this, Finset.sum_range_add]
    simp only [Nat.add_assoc]

theorem aligned_mem : ∀ (parts : List CS) (s n : Nat), Aligned s parts → n = (parts.map CS.dim).sum → ∀ p ∈ parts, s ≤ p.start ∧ p.start - s + p.dim ≤ n := by
  intro parts
  induction parts with
  | nil => simp
  | cons q parts ih =>
    intro s n ha hn p hp
    rcases List.mem_cons.1 hp with rfl | hp
    · have := ha.1; simp at hn; omega
    · have := ih (s + q.dim) (n - q.dim) ha.2 (by simp at hn; omega) p hp
      simp at hn; omega

theorem aligned_axes (P : Nat → Prop) : ∀ (parts : List CS) (s n : Nat), Aligned s parts → n = (parts.map CS.dim).sum →
    ((∀ p ∈ parts, ∀ i < p.dim, P (p.start + i)) ↔ ∀ i < n, P (s + i)) := by
  intro parts s n ha hn
  constructor
  · intro h i hi
    obtain ⟨p, k, e, hk, hs⟩ := locate_spec parts s i ha (by omega)
    have hp : ∀ (parts : List CS) i, locate parts i = some (p, k) → p ∈ parts := by
      intro parts
      induction parts with
      | nil => intro i h; simp [locate] at h
      | cons q parts ih =>
        intro i h
        unfold locate at h
        split_ifs at h with hh
        · have := (Prod.mk.inj (Option.some.inj h)).1; simp [this]
        · simp [ih _ h]
    rw [← hs]
    exact h p (hp parts i e) k hk
  · intro h p hp i hi
    have := aligned_mem parts s n ha hn p hp
    have h' := h (p.start - s + i) (by omega)
    rwa [show s + (p.start - s + i) = p.start + i by omega] at h'

/-- The divergence in a direct product of straight systems, for operands that depend on one of its coordinates. -/
theorem divergence_product_partial {cs : CS} {S : List CS} {F : List Nat → (Nat → ℝ) → K} {o : Opd K} (h : Stands (cs :: S) F o) (parts : List CS)
    (ha : Aligned cs.start parts) (hd : cs.dim = (parts.map CS.dim).sum) (hb : ∃ i < cs.dim, o.basis (cs.start + i) = true) :
    ∃ r, productDivergence 0 cs parts o = some r ∧ Stands S (fun idx => Spec.div cs.start cs.dim fun i => F (i :: idx)) r := by
  obtain ⟨l, e, hf, hl, hz⟩ := map_factors (S := S) (fun p => divergence 0 (factor 0 cs p o))
    (fun p idx x => Spec.div p.start p.dim (fun i => F ((p.start - cs.start + i) :: idx)) x) (fun p => ∀ i < p.dim, o.basis (p.start + i) = false) parts
    (fun p hp => by
      obtain ⟨r, e, hr, hz⟩ := divergence_partial (stands_factor h (aligned_mem parts cs.start cs.dim ha hd p hp).2)
      exact ⟨r, e, hr, hz⟩)
  obtain ⟨r, e', hr, hz'⟩ := rep_sum l hl
  have hne : r ≠ .zero := by
    rw [Ne, hz', hz, aligned_axes (fun a => o.basis a = false) parts cs.start cs.dim ha hd]
    obtain ⟨i, hi, hi'⟩ := hb
    intro c
    rw [c i hi] at hi'; cases hi'
  unfold productDivergence
  simp only [Option.bind_eq_bind, e, Option.bind_some, e']
  cases r with
  | zero => exact absurd rfl hne
  | opd d =>
    refine ⟨d, rfl, Rep.congr (p := .opd d) hr fun idx _ => ?_⟩
    funext x
    have hmap : (l.map fun p => p.1 idx x) = (parts.map fun p => ∑ i ∈ Finset.range p.dim, Spec.pd (cs.start + (p.start + i - cs.start)) (F ((p.start + i - cs.start) :: idx)) x) := by
      rw [show (l.map fun p => p.1 idx x) = (l.map Prod.fst).map fun g => g idx x by simp, hf, List.map_map]
      refine List.map_congr_left fun p hp => ?_
      have hm := (aligned_mem parts cs.start cs.dim ha hd p hp).1
      unfold Spec.div
      refine Finset.sum_congr rfl fun i _ => ?_
      rw [show cs.start + (p.start + i - cs.start) = p.start + i by omega, show p.start + i - cs.start = p.start - cs.start + i by omega]
    rw [hmap, aligned_sum (fun a => Spec.pd (cs.start + (a - cs.start)) (F ((a - cs.start) :: idx)) x) parts cs.start cs.dim ha hd]
    unfold Spec.div
    refine Finset.sum_congr rfl fun i _ => ?_
    rw [Nat.add_sub_cancel_left]

/-- The Laplacian in a direct product of straight systems, for operands that depend on the first coordinate of one of the factors (or on any
coordinate, if the system is not given). -/
theorem laplacian_product_partial {S : List CS} {F : List Nat → (Nat → ℝ) → K} {o : Opd K} (h : Stands S F o) (cs : CS) (parts : List CS) (given : Bool)
    (ha : Aligned cs.start parts) (hd : cs.dim = (parts.map CS.dim).sum) (hb : ∃ i < cs.dim, o.basis (cs.start + i) = true)
    (hg : given = true → ∃ p ∈ parts, o.basis p.start = true) :
    ∃ r, productLaplacian given parts o = some (.opd r) ∧ Stands S (fun idx => Spec.lap cs.start cs.dim (F idx)) r := by
  obtain ⟨l, e, hf, hl, hz⟩ := map_factors (S := S) (fun p => laplacian true p o) (fun p idx x => Spec.lap p.start p.dim (F idx) x)
    (fun p => ∀ i < p.dim, o.basis (p.start + i) = false) parts (fun p _ => laplacian_partial h p true (Or.inl rfl))
  obtain ⟨r, e', hr, hz'⟩ := rep_sum l hl
  have hne : r ≠ .zero := by
    rw [Ne, hz', hz, aligned_axes (fun a => o.basis a = false) parts cs.start cs.dim ha hd]
    obtain ⟨i, hi, hi'⟩ := hb
    intro c
    rw [c i hi] at hi'; cases hi'
  unfold productLaplacian
  rw [if_neg (by
    rintro ⟨h1, h2⟩
    obtain ⟨p, hp, hp'⟩ := hg h1
    exact h2 (List.any_eq_true.2 ⟨p, hp, hp'⟩))]
  simp only [Option.bind_eq_bind, e, Option.bind_some, e']
  cases r with
  | zero => exact absurd rfl hne
  | opd d =>
    refine ⟨d, rfl, Rep.congr (p := .opd d) hr fun idx _ => ?_⟩
    funext x
    have hmap : (l.map fun p => p.1 idx x) = (parts.map fun p => ∑ i ∈ Finset.range p.dim, Spec.pd (p.start + i) (Spec.pd (p.start + i) (F idx)) x) := by
      rw [show (l.map fun p => p.1 idx x) = (l.map Prod.fst).map fun g => g idx x by simp, hf, List.map_map]
      rfl
    rw [hmap, aligned_sum (fun a => Spec.pd a (Spec.pd a (F idx)) x) parts cs.start cs.dim ha hd]
    rfl

/-- The Laplacian of `y ^ 2` in the product of the plane `(x, y)` and the coordinate `z`, for a field with a basis along `y` only: the number 0
is returned instead of 2. -/
theorem laplacian_product_refuted : ∃ (o : Opd ℝ) (F : List Nat → (Nat → ℝ) → ℝ), Stands [] F o ∧ Aligned 0 [⟨0, 2, true⟩, ⟨2, 1, true⟩] ∧
    productLaplacian true [⟨0, 2, true⟩, ⟨2, 1, true⟩] o = some .zero ∧ ∀ x, Spec.lap 0 3 (F []) x = 2 := by
  refine ⟨⟨[], fun a => a == 1, fun _ => some fun x => x 1 ^ 2⟩, fun _ x => x 1 ^ 2, ⟨rfl, fun _ _ => rfl, fun a ha _ _ x t => ?_⟩, ⟨rfl, rfl, trivial⟩, ?_, fun x => ?_⟩
  · have : (1 : Nat) ≠ a := by rintro rfl; simp at ha
    simp [Function.update_of_ne this]
  · unfold productLaplacian
    rw [if_pos (by simp)]
  · have h0 : Spec.pd 0 (fun x : Nat → ℝ => x 1 ^ 2) = fun _ => (0 : ℝ) := pd_independent (fun x t => by simp)
    have h2 : Spec.pd 2 (fun x : Nat → ℝ => x 1 ^ 2) = fun _ => (0 : ℝ) := pd_independent (fun x t => by simp)
    have h1 : Spec.pd 1 (fun x : Nat → ℝ => x 1 ^ 2) = fun x => 2 * x 1 := by
      funext x
      simp [Spec.pd]
    have h11 : Spec.pd 1 (fun x : Nat → ℝ => 2 * x 1) = fun _ => 2 := by
      funext x
      simp [Spec.pd]
    simp [Spec.lap, Finset.sum_range_succ, h0, h1, h2, h11, pd_zero]

theorem stands_skew {cs : CS} {F : List Nat → (Nat → ℝ) → K} {o : Opd K} (h : Stands [cs] F o) (hd : cs.dim = 2) :
    ∃ r, skew (.opd o) = some (.opd r) ∧ Stands [cs] (fun idx x => if idx = [0] then -F [1] x else F [0] x) r ∧ r.basis = o.basis := by
  have f : ∀ i < 2, Fits [cs] [i] := fun i hi => fits_cons.2 ⟨by omega, .nil⟩
  refine ⟨{ o with value := skewData o.value }, by simp [skew, h.sig, hd], ⟨h.sig, fun idx hidx => ?_, fun a ha idx _ x t => ?_⟩, rfl⟩
  · match idx, hidx with
    | [i], .cons hi .nil =>
      have hi : i < cs.dim := hi
      have : i = 0 ∨ i = 1 := by omega
      rcases this with rfl | rfl
      · simp [skewData, h.value [1] (f 1 (by omega))]
      · simp [skewData, h.value [0] (f 0 (by omega))]
  · beta_reduce
    rw [h.const a ha [1] (f 1 (by omega)) x t, h.const a ha [0] (f 0 (by omega)) x t]

theorem stands_dot_unit {cz : CS} {F : List Nat → (Nat → ℝ) → K} {o : Opd K} (h : Stands [cz] F o) (hd : cz.dim = 1) :
    ∃ w, dot (unit cz 0) o = some w ∧ Stands [] (fun _ => F [0]) w ∧ w.basis = o.basis := by
  have f : Fits [cz] [0] := fits_cons.2 ⟨by omega, .nil⟩
  refine ⟨_, by simp [dot, h.sig, unit]; rfl, ⟨rfl, fun idx hidx => ?_, fun a ha idx _ => ?_⟩, ?_⟩
  · match idx, hidx with
    | [], .nil => simp [hd, List.range_succ, h.value [0] f]
  · exact h.const a (by simpa using ha) [0] f
  · funext a; simp

theorem stands_dot_identity {cs ch : CS} {F : List Nat → (Nat → ℝ) → K} {o : Opd K} (h : Stands [ch] F o) (hd : ch.dim = 2) (hc : cs.dim = 3) :
    ∃ w, dot (identity cs ch 1) o = some w ∧ Stands [cs] (fun idx x => if idx = [0] then 0 else if idx = [1] then F [0] x else F [1] x) w := by
  have f : ∀ i < 2, Fits [ch] [i] := fun i hi => fits_cons.2 ⟨by omega, .nil⟩
  refine ⟨_, by simp [dot, h.sig, identity]; rfl, ⟨rfl, fun idx hidx => ?_, fun a ha idx _ x t => ?_⟩⟩
  · match idx, hidx with
    | [i], .cons hi .nil =>
      have hi : i < cs.dim := hi
      have : i = 0 ∨ i = 1 ∨ i = 2 := by omega
      rcases this with rfl | rfl | rfl <;> simp [hd, hc, List.range_succ, h.value [0] (f 0 (by omega)), h.value [1] (f 1 (by omega))]
  · have ha' : o.basis a = false := by simpa using ha
    beta_reduce
    rw [h.const a ha' [1] (f 1 (by omega)) x t, h.const a ha' [0] (f 0 (by omega)) x t]

/-- The curl of a vector in the direct product of a coordinate and a plane, in this order (with opposite sign in left-handed coordinates). -/
theorem curl_product_partial {cs cz ch : CS} {F : List Nat → (Nat → ℝ) → K} {o : Opd K} (h : Stands [cs] F o) (ha : Aligned cs.start [cz, ch])
    (hz : cz.dim = 1) (hh : ch.dim = 2) (hd : cs.dim = 3) :
    ∃ r, productCurl cs [cz, ch] o = some r ∧ Stands [cs] (fun idx x => (if cs.right then 1 else -1) *
      Spec.curl cs.start (fun k => F [k]) (if idx = [0] then 0 else if idx = [1] then 1 else 2) x) r := by
  obtain ⟨a1, a2, -⟩ := ha
  rw [hz] at a2
  have uz := stands_factor (part := cz) h (by omega)
  have uh := stands_factor (part := ch) h (by omega)
  obtain ⟨s, es, hs, bs⟩ := stands_skew uh hh
  obtain ⟨w, ew, hw, bw⟩ := stands_dot_unit uz hz
  have hg := gradient_exact hw ch
  obtain ⟨g, eg, hg', bg⟩ := stands_skew hg hh
  have hds := rep_differentiate cz.start (show Rep [ch] _ (.opd s) from hs)
  obtain ⟨hc, ehc, hhc, zhc⟩ := rep_sub hds (show Rep [ch] _ (.opd g) from hg')
  obtain ⟨d, ed, hdv, -⟩ := divergence_partial hs
  cases hc with
  | zero => exact absurd (zhc.1 rfl).2 (by simp)
  | opd ho =>
    obtain ⟨i, ei, hi⟩ := stands_dot_identity (cs := cs) hhc hh hd
    have hdiv : Rep [] (fun _ => Spec.div ch.start ch.dim (fun k x => if k = 0 then -F [2] x else F [1] x)) d := by
      refine hdv.congr fun idx hidx => ?_
      match idx, hidx with
      | [], .nil =>
        have e1 : ch.start - cs.start + 1 = 2 := by omega
        have e0 : ch.start - cs.start + 0 = 1 := by omega
        simp only [hh, Spec.div, Finset.sum_range_succ, Finset.sum_range_zero, e0, e1]
        rfl
    have hmul : Rep [cs] (fun idx x => (if idx = [0] then 1 else 0) * Spec.div ch.start ch.dim (fun k x => if k = 0 then -F [2] x else F [1] x) x)
        (mul (.opd (unit cs 0)) d) := by
      cases d with
      | zero =>
        intro idx hf
        funext x
        have := congrFun (hdiv [] .nil) x
        beta_reduce at this ⊢
        rw [this, mul_zero]
      | opd d =>
        refine ⟨by simp [unit, hdiv.sig], fun idx hidx => ?_, fun a ha idx _ x t => ?_⟩
        · match idx, hidx with
          | [i], .cons hi .nil =>
            have hi : i < cs.dim := hi
            show ((unit cs 0).value ([i].take 1)).bind _ = _
            simp [unit, hi, hdiv.value [] .nil]
        · have ha' : d.basis a = false := by simpa [unit] using ha
          beta_reduce
          rw [hdiv.const a ha' [] .nil x t]
    obtain ⟨r, er, hr, zr⟩ := rep_add (show Rep [cs] _ (.opd i) from hi) (rep_neg hmul)
    have hcurl : productCurl cs [cz, ch] o = operand (if false = cs.right then neg r else r) := by
      unfold productCurl
      rw [if_neg (by simp [hd, h.sig])]
      simp only [hz, hh, and_self, if_true, Option.bind_eq_bind, es, ew, eg, ehc, Option.bind_some, operand, ed, ei, er]
    have hval : Rep [cs] (fun idx x => Spec.curl cs.start (fun k => F [k]) (if idx = [0] then 0 else if idx = [1] then 1 else 2) x) r := by
      refine hr.congr fun idx hidx => ?_
      funext x
      have e0 : cz.start - cs.start + 0 = 0 := by omega
      have e1 : ch.start - cs.start + 0 = 1 := by omega
      have e2 : ch.start - cs.start + 1 = 2 := by omega
      match idx, hidx with
      | [i], .cons hi .nil =>
        have hi : i < cs.dim := hi
        have : i = 0 ∨ i = 1 ∨ i = 2 := by omega
        rcases this with rfl | rfl | rfl
        · simp [Spec.curl, Spec.div, hh, Finset.sum_range_succ, pd_neg, a2]
          ring
        · simp [Spec.curl, a1, a2, e0, e1, e2, pd_neg]
          ring
        · simp [Spec.curl, a1, a2, e0, e1, e2, pd_neg]
    cases r with
    | zero => exact absurd (zr.1 rfl).1 (by simp)
    | opd ro =>
      by_cases hrt : cs.right = true
      · refine ⟨ro, by rw [hcurl, if_neg (by simp [hrt])]; rfl, ?_⟩
        exact Rep.congr (p := .opd ro) hval fun idx _ => by funext x; rw [if_pos hrt, one_mul]
      · have hn := rep_neg hval
        refine ⟨_, by rw [hcurl, if_pos (by simp [hrt])]; rfl, ?_⟩
        exact Rep.congr (p := neg (.opd ro)) hn fun idx _ => by funext x; rw [if_neg hrt, neg_one_mul]

/-- The curl raises for every vector field when the plane comes before the coordinate. -/
theorem curl_product_refuted (cs ch cz : CS) (o : Opd K) (hh : ch.dim = 2) : productCurl cs [ch, cz] o = none := by
  unfold productCurl
  simp [hh]

/-- The divergence of a constant vector field raises in direct products, although it is 0 in Cartesian coordinates. -/
theorem divergence_product_constant_refuted : ∃ o : Opd ℝ, Stands [⟨0, 3, true⟩] (fun _ _ => 1) o ∧ divergence 0 o = some .zero ∧
    productDivergence 0 ⟨0, 3, true⟩ [⟨0, 1, true⟩, ⟨1, 2, true⟩] o = none := by
  refine ⟨⟨[⟨0, 3, true⟩], fun _ => false, fun _ => some fun _ => 1⟩, ⟨rfl, fun _ _ => rfl, fun _ _ _ _ _ _ => rfl⟩, ?_, ?_⟩
  · simp [divergence]
  · simp [productDivergence, divergence, factor, sum, add, operand]

/-! ## The hypotheses hold for a velocity field -/

/-- `(y z, 0, x)` with bases along all axes. -/
example : Stands [⟨0, 3, true⟩] (fun idx x => if idx = [0] then x 1 * x 2 else if idx = [1] then 0 else x 0)
    (⟨[⟨0, 3, true⟩], fun _ => true, fun idx => some fun x => if idx = [0] then x 1 * x 2 else if idx = [1] then 0 else x 0⟩ : Opd ℝ) :=
  ⟨rfl, fun _ _ => rfl, fun _ h => absurd h (by simp)⟩

example : Aligned 0 [⟨0, 1, true⟩, ⟨1, 2, true⟩] := ⟨rfl, rfl, trivial⟩

end Dedalus.Cart
