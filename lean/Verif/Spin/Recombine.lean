import Verif.Spin.Lemmas

/-!
# Lemmas on recombinations along tensor axes
-/

namespace Dedalus.Spin

/-- Both recombinations of complex data: `F` is the identity or the adjoint. -/
noncomputable def along (F : Mat → Mat) : Nat → List (Option Mat) → Comps → Comps
  | _, [], u => u
  | i, none :: fs, u => along F (i + 1) fs u
  | i, some A :: fs, u => along F (i + 1) fs (applyAxis (F A) i u)

theorem forward_along : ∀ (fs : List (Option Mat)) (i : Nat) (u : Comps), forwardComplex i fs u = along id i fs u
  | [], _, _ => rfl
  | none :: fs, i, u => by rw [forwardComplex, along, forward_along fs]
  | some A :: fs, i, u => by rw [forwardComplex, along, forward_along fs]; rfl

theorem backward_along : ∀ (fs : List (Option Mat)) (i : Nat) (u : Comps), backwardComplex i fs u = along Mat.dag i fs u
  | [], _, _ => rfl
  | none :: fs, i, u => by rw [backwardComplex, along, backward_along fs]
  | some A :: fs, i, u => by rw [backwardComplex, along, backward_along fs]

theorem apply_comm (A B : Mat) {i j : Nat} (h : i ≠ j) (u : Comps) : applyAxis A i (applyAxis B j u) = applyAxis B j (applyAxis A i u) := by
  funext t
  unfold applyAxis
  simp only [Finset.mul_sum]
  rw [Finset.sum_comm]
  apply Finset.sum_congr rfl
  intro a _
  apply Finset.sum_congr rfl
  intro b _
  rw [List.getElem?_set_ne h, List.getElem?_set_ne (Ne.symm h), List.set_comm _ _ h]
  ring

theorem along_comm (F : Mat → Mat) (A : Mat) : ∀ (fs : List (Option Mat)) (i j : Nat) (u : Comps), j < i →
    applyAxis A j (along F i fs u) = along F i fs (applyAxis A j u)
  | [], _, _, _, _ => rfl
  | none :: fs, i, j, u, h => by rw [along, along, along_comm F A fs (i + 1) j u (by omega)]
  | some B :: fs, i, j, u, h => by
    rw [along, along, along_comm F A fs (i + 1) j _ (by omega), apply_comm A (F B) (by omega)]

/-- Tuples of indices below the dimensions. -/
def Valid (dims t : List Nat) : Prop := t.length = dims.length ∧ ∀ (k d x : Nat), dims[k]? = some d → t[k]? = some x → x < d

theorem valid_get {dims t : List Nat} (h : Valid dims t) {k d : Nat} (hd : dims[k]? = some d) : ∃ x, t[k]? = some x ∧ x < d := by
  have hk : k < dims.length := (List.getElem?_eq_some_iff.1 hd).1
  have ht : k < t.length := by rw [h.1]; exact hk
  exact ⟨t[k], List.getElem?_eq_getElem ht, h.2 k d _ hd (List.getElem?_eq_getElem ht)⟩

theorem valid_set {dims t : List Nat} (h : Valid dims t) {k d x : Nat} (hd : dims[k]? = some d) (hx : x < d) : Valid dims (t.set k x) := by
  refine ⟨by rw [List.length_set]; exact h.1, fun k' d' x' h1 h2 => ?_⟩
  by_cases hk : k = k'
  · subst hk
    rw [hd] at h1
    cases h1
    have ht : k < t.length := by rw [h.1]; exact (List.getElem?_eq_some_iff.1 hd).1
    rw [List.getElem?_set_self ht] at h2
    cases h2
    exact hx
  · rw [List.getElem?_set_ne hk] at h2
    exact h.2 k' d' x' h1 h2

/-- The factors are square of the dimension of their axis. -/
def Shapes (dims : List Nat) : Nat → List (Option Mat) → Prop
  | _, [] => True
  | i, none :: fs => Shapes dims (i + 1) fs
  | i, some A :: fs => dims[i]? = some A.rows ∧ A.cols = A.rows ∧ Shapes dims (i + 1) fs

/-- The factors are moreover unitary. -/
def Unitary (dims : List Nat) : Nat → List (Option Mat) → Prop
  | _, [] => True
  | i, none :: fs => Unitary dims (i + 1) fs
  | i, some A :: fs => dims[i]? = some A.rows ∧ Inv A.rows A A.dag ∧ Inv A.rows A.dag A ∧ Unitary dims (i + 1) fs

theorem set_get {t : List Nat} {i x : Nat} (h : t[i]? = some x) : t.set i x = t := by
  obtain ⟨hi, hx⟩ := List.getElem?_eq_some_iff.1 h
  rw [← hx]
  exact List.set_getElem_self hi

theorem apply_inv {n : Nat} {A B : Mat} (h : Inv n A B) {i x : Nat} (u : Comps) {t : List Nat} (ht : t[i]? = some x) (hx : x < n) :
    applyAxis A i (applyAxis B i u) t = u t := by
  obtain ⟨_, a2, _, b4, hab⟩ := h
  unfold applyAxis
  have hlen : i < t.length := (List.getElem?_eq_some_iff.1 ht).1
  rw [a2, b4, ht]
  simp only [List.getElem?_set_self hlen, List.set_set, Option.getD_some, Finset.mul_sum]
  rw [Finset.sum_comm]
  have e : ∀ b ∈ Finset.range n, ∑ a ∈ Finset.range n, A.entry x a * (B.entry a b * u (t.set i b)) = (if x = b then 1 else 0) * u (t.set i b) := by
    intro b hb
    rw [← hab x hx b (Finset.mem_range.1 hb), Finset.sum_mul]
    apply Finset.sum_congr rfl
    intro a _
    ring
  rw [Finset.sum_congr rfl e, Finset.sum_eq_single_of_mem x (Finset.mem_range.2 hx)]
  · rw [if_pos rfl, one_mul, set_get ht]
  · intro b _ hb
    rw [if_neg (Ne.symm hb), zero_mul]

/-- Backward after forward. -/
theorem along_inv (dims : List Nat) : ∀ (fs : List (Option Mat)) (i : Nat) (u : Comps) (t : List Nat), Unitary dims i fs → Valid dims t →
    along Mat.dag i fs (along id i fs u) t = u t ∧ along id i fs (along Mat.dag i fs u) t = u t
  | [], _, _, _, _, _ => ⟨rfl, rfl⟩
  | none :: fs, i, u, t, h, ht => by simp only [along]; exact along_inv dims fs (i + 1) u t h ht
  | some A :: fs, i, u, t, h, ht => by
    obtain ⟨h1, h2, h3, h4⟩ := h
    obtain ⟨x, hx1, hx2⟩ := valid_get ht h1
    simp only [along]
    rw [along_comm id _ fs (i + 1) i _ (by omega), along_comm Mat.dag _ fs (i + 1) i _ (by omega),
      (along_inv dims fs (i + 1) _ t h4 ht).1, (along_inv dims fs (i + 1) _ t h4 ht).2]
    exact ⟨apply_inv h3 u hx1 hx2, apply_inv h2 u hx1 hx2⟩

theorem along_congr (F : Mat → Mat) (hF : ∀ A, A.cols = A.rows → (F A).cols = A.rows) (dims : List Nat) :
    ∀ (fs : List (Option Mat)) (i : Nat) (u v : Comps), Shapes dims i fs → (∀ t, Valid dims t → u t = v t) →
    ∀ t, Valid dims t → along F i fs u t = along F i fs v t
  | [], _, _, _, _, huv, t, ht => huv t ht
  | none :: fs, i, u, v, h, huv, t, ht => by simp only [along]; exact along_congr F hF dims fs (i + 1) u v h huv t ht
  | some A :: fs, i, u, v, h, huv, t, ht => by
    simp only [along]
    obtain ⟨h1, h2, h3⟩ := h
    refine along_congr F hF dims fs (i + 1) _ _ h3 (fun t ht => ?_) t ht
    unfold applyAxis
    apply Finset.sum_congr rfl
    intro j hj
    rw [hF A h2] at hj
    rw [huv _ (valid_set ht h1 (Finset.mem_range.1 hj))]

theorem apply_eye {i x n : Nat} (u : Comps) {t : List Nat} (ht : t[i]? = some x) (hx : x < n) : applyAxis (eye n) i u t = u t := by
  unfold applyAxis
  rw [ht]
  simp only [Option.getD_some, eye]
  rw [Finset.sum_eq_single_of_mem x (Finset.mem_range.2 hx)]
  · rw [if_pos rfl, one_mul, set_get ht]
  · intro b _ hb
    rw [if_neg (Ne.symm hb), zero_mul]

/-- Filling the placeholders with identities changes nothing for complex data. -/
theorem along_fill (F : Mat → Mat) (hF : ∀ n, F (eye n) = eye n) (dims : List Nat) : ∀ (sig : List Index) (fs : List (Option Mat)) (i : Nat) (u : Comps) (t : List Nat),
    sig.length = fs.length → (∀ k cs, sig[k]? = some cs → dims[i + k]? = some cs.dim) → Valid dims t →
    along F i (fillFactors sig fs) u t = along F i fs u t
  | [], [], _, _, _, _, _, _ => rfl
  | cs :: sig, none :: fs, i, u, t, hl, hd, ht => by
    obtain ⟨x, hx1, hx2⟩ := valid_get ht (hd 0 cs rfl)
    rw [Nat.add_zero] at hx1
    have hd' : ∀ k c, sig[k]? = some c → dims[i + 1 + k]? = some c.dim := fun k c h => by
      rw [← hd (k + 1) c h]; congr 1; omega
    have e : fillFactors (cs :: sig) (none :: fs) = some (eye cs.dim) :: fillFactors sig fs := rfl
    rw [e, along, along, ← along_comm F _ _ (i + 1) i u (by omega), hF]
    rw [apply_eye _ hx1 hx2, along_fill F hF dims sig fs (i + 1) u t (by simpa using hl) hd' ht]
  | cs :: sig, some A :: fs, i, u, t, hl, hd, ht => by
    have hd' : ∀ k c, sig[k]? = some c → dims[i + 1 + k]? = some c.dim := fun k c h => by
      rw [← hd (k + 1) c h]; congr 1; omega
    have e : fillFactors (cs :: sig) (some A :: fs) = some A :: fillFactors sig fs := rfl
    rw [e, along, along, along_fill F hF dims sig fs (i + 1) _ t (by simpa using hl) hd' ht]

/-! ## Kronecker products -/

/-- Row-major index. -/
def flatFrom : Nat → List Nat → List Nat → Nat
  | a, d :: ds, x :: t => flatFrom (a * d + x) ds t
  | a, _, _ => a

/-- Sum over all tuples of indices below the dimensions. -/
noncomputable def tupleSum : List Nat → (List Nat → ℂ) → ℂ
  | [], f => f []
  | d :: ds, f => ∑ x ∈ Finset.range d, tupleSum ds fun t => f (x :: t)

/-- Product of entries. -/
noncomputable def prodEntry : List Mat → List Nat → List Nat → ℂ
  | A :: fs, x :: t, y :: s => A.entry x y * prodEntry fs t s
  | _, _, _ => 1

theorem kron2_entry {A B : Mat} {a b x y : Nat} (hx : x < B.rows) (hy : y < B.cols) :
    (kron2 A B).entry (a * B.rows + x) (b * B.cols + y) = A.entry a b * B.entry x y := by
  have h1 : 0 < B.rows := by omega
  have h2 : 0 < B.cols := by omega
  simp only [kron2]
  rw [Nat.mul_comm a, Nat.mul_comm b, Nat.mul_add_div h1, Nat.mul_add_mod, Nat.mul_add_div h2, Nat.mul_add_mod,
    Nat.div_eq_of_lt hx, Nat.mod_eq_of_lt hx, Nat.div_eq_of_lt hy, Nat.mod_eq_of_lt hy, Nat.add_zero, Nat.add_zero]

theorem foldl_entry : ∀ (fs : List Mat) (dims : List Nat) (t s : List Nat) (A : Mat) (a b : Nat),
    List.Forall₂ (fun B d => B.rows = d ∧ B.cols = d) fs dims → List.Forall₂ (· < ·) t dims → List.Forall₂ (· < ·) s dims →
    (fs.foldl kron2 A).entry (flatFrom a dims t) (flatFrom b dims s) = A.entry a b * prodEntry fs t s
  | [], _, _, _, A, a, b, .nil, .nil, .nil => by simp [flatFrom, prodEntry]
  | B :: fs, d :: ds, x :: t, y :: s, A, a, b, .cons hB h1, .cons hx h2, .cons hy h3 => by
    rw [List.foldl_cons, flatFrom, flatFrom, foldl_entry fs ds t s _ _ _ h1 h2 h3, prodEntry, ← mul_assoc]
    congr 1
    have := @kron2_entry A B a b x y (by omega) (by omega)
    rw [hB.1, hB.2] at this
    exact this

theorem kron_entry (fs : List Mat) (dims : List Nat) (t s : List Nat)
    (h1 : List.Forall₂ (fun B d => B.rows = d ∧ B.cols = d) fs dims) (h2 : List.Forall₂ (· < ·) t dims) (h3 : List.Forall₂ (· < ·) s dims) :
    (kron fs).entry (flatFrom 0 dims t) (flatFrom 0 dims s) = prodEntry fs t s := by
  cases h1 with
  | nil => cases h2; cases h3; simp [kron, eye, flatFrom, prodEntry]
  | @cons B d fs ds hB h1 =>
    cases h2 with
    | @cons x _ t _ hx h2 =>
      cases h3 with
      | @cons y _ s _ hy h3 =>
        rw [kron, flatFrom, flatFrom, Nat.zero_mul, Nat.zero_add, Nat.zero_add, foldl_entry fs ds t s _ _ _ h1 h2 h3, prodEntry]

theorem tupleSum_congr : ∀ (dims : List Nat) (f g : List Nat → ℂ), (∀ s, List.Forall₂ (· < ·) s dims → f s = g s) → tupleSum dims f = tupleSum dims g
  | [], f, g, h => h [] .nil
  | d :: ds, f, g, h => by
    apply Finset.sum_congr rfl
    intro x hx
    exact tupleSum_congr ds _ _ fun s hs => h (x :: s) (.cons (Finset.mem_range.1 hx) hs)

theorem tupleSum_sum (ι : Finset Nat) : ∀ (dims : List Nat) (f : Nat → List Nat → ℂ),
    tupleSum dims (fun s => ∑ j ∈ ι, f j s) = ∑ j ∈ ι, tupleSum dims (f j)
  | [], f => rfl
  | d :: ds, f => by
    simp only [tupleSum]
    rw [Finset.sum_comm]
    apply Finset.sum_congr rfl
    intro x _
    exact tupleSum_sum ι ds fun j s => f j (x :: s)

theorem along_sum : ∀ (fs : List Mat) (dims : List Nat) (pre t : List Nat) (u : Comps),
    List.Forall₂ (fun B d => B.rows = d ∧ B.cols = d) fs dims → t.length = dims.length →
    along id pre.length (fs.map some) u (pre ++ t) = tupleSum dims fun s => prodEntry fs t s * u (pre ++ s)
  | [], _, pre, t, u, .nil, ht => by
    have : t = [] := List.length_eq_zero_iff.1 ht
    subst this
    simp [along, tupleSum, prodEntry]
  | B :: fs, d :: ds, pre, [], u, .cons hB h, ht => by simp at ht
  | B :: fs, d :: ds, pre, x :: t, u, .cons hB h, ht => by
    rw [List.map_cons, along]
    have e := along_sum fs ds (pre ++ [x]) t (applyAxis (id B) pre.length u) h (by simpa using ht)
    rw [List.length_append, List.length_singleton, List.append_assoc, List.singleton_append] at e
    rw [e, tupleSum]
    have e2 : ∀ s, applyAxis (id B) pre.length u (pre ++ [x] ++ s) = ∑ j ∈ Finset.range d, B.entry x j * u (pre ++ j :: s) := by
      intro s
      unfold applyAxis
      simp [hB.2]
    simp only [e2, Finset.mul_sum]
    rw [tupleSum_sum]
    apply Finset.sum_congr rfl
    intro j _
    apply tupleSum_congr
    intro s _
    rw [prodEntry]
    ring

end Dedalus.Spin
