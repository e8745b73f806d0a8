import Mathlib.Algebra.BigOperators.Ring.Finset
import Mathlib.Algebra.BigOperators.Group.Finset.Sigma
import Mathlib.Tactic.Ring
import Verif.Mats.Spec

/-! Helper lemmas for expression matrices. -/

namespace Dedalus.Mats

open Dedalus.Symb

variable {K X : Type} [Field K] [DecidableEq K]

/-- One block times its variable. -/
def rowVal (x : Nat → Nat → K) (i : Nat) (p : Nat × Mat K) : K :=
  ∑ j ∈ Finset.range p.2.cols, p.2.e i j * x p.1 j

/-- Row `i` of the blocks times the variables. -/
def dictVal (x : Nat → Nat → K) (i : Nat) (d : Dict K) : K := (d.map (rowVal x i)).sum

/-- All blocks have `n` rows and as many columns as their variable has coefficients. -/
def DictOK (n : Nat) (sz : Nat → Nat) (V : List Nat) (d : Dict K) : Prop :=
  (∀ p ∈ d, p.2.rows = n ∧ p.2.cols = sz p.1 ∧ p.1 ∈ V) ∧ (d.map Prod.fst).Nodup

theorem accum_keys {d d' : Dict K} {v : Nat} {m : Mat K} (h : d.accum v m = some d') :
    ∀ w, w ∈ d'.map Prod.fst ↔ w = v ∨ w ∈ d.map Prod.fst := by
  induction d generalizing d' with
  | nil => simp only [Dict.accum, Option.some.injEq] at h; subst h; intro w; simp
  | cons p rest ih =>
    obtain ⟨w0, n⟩ := p
    simp only [Dict.accum] at h
    split at h
    · rename_i hw
      obtain ⟨s, _, h⟩ := Option.bind_eq_some_iff.1 h
      obtain rfl := Option.some.inj h
      intro w; simp only [List.map_cons, List.mem_cons]; subst hw; tauto
    · obtain ⟨r, hr, h⟩ := Option.bind_eq_some_iff.1 h
      obtain rfl := Option.some.inj h
      intro w; simp only [List.map_cons, List.mem_cons, ih hr w]; tauto

theorem accum_spec {n : Nat} {sz : Nat → Nat} {V : List Nat} {d d' : Dict K} {v : Nat} {m : Mat K}
    (hd : DictOK n sz V d) (hm : m.rows = n ∧ m.cols = sz v ∧ v ∈ V) (h : d.accum v m = some d') :
    DictOK n sz V d' ∧ ∀ x i, dictVal x i d' = dictVal x i d + rowVal x i (v, m) := by
  induction d generalizing d' with
  | nil =>
    simp only [Dict.accum, Option.some.injEq] at h; subst h
    exact ⟨⟨by simpa using hm, by simp⟩, by simp [dictVal]⟩
  | cons p rest ih =>
    obtain ⟨w, k⟩ := p
    have hp := hd.1 (w, k) (by simp)
    have hrest : DictOK n sz V rest := ⟨fun p h => hd.1 p (by simp [h]), (List.nodup_cons.1 hd.2).2⟩
    have hw0 : w ∉ rest.map Prod.fst := (List.nodup_cons.1 hd.2).1
    simp only [Dict.accum] at h
    split at h
    · rename_i hw
      subst hw
      obtain ⟨s, hs, h⟩ := Option.bind_eq_some_iff.1 h
      obtain rfl := Option.some.inj h
      unfold Mat.add at hs
      split at hs
      · rename_i hsh
        obtain rfl := Option.some.inj hs
        refine ⟨⟨?_, ?_⟩, ?_⟩
        · intro p hp'
          rcases List.mem_cons.1 hp' with rfl | hp'
          · exact hp
          · exact hrest.1 p hp'
        · simpa using hd.2
        · intro x i
          simp only [dictVal, List.map_cons, List.sum_cons, rowVal, ← hsh.2, add_mul, Finset.sum_add_distrib]
          ring
      · simp at hs
    · rename_i hw
      obtain ⟨r, hr, h⟩ := Option.bind_eq_some_iff.1 h
      obtain rfl := Option.some.inj h
      obtain ⟨h1, h2⟩ := ih hrest hr
      refine ⟨⟨?_, ?_⟩, ?_⟩
      · intro p hp'
        rcases List.mem_cons.1 hp' with rfl | hp'
        · exact hp
        · exact h1.1 p hp'
      · simp only [List.map_cons, List.nodup_cons]
        refine ⟨?_, h1.2⟩
        rw [accum_keys hr]
        rintro (h | h)
        · exact hw h
        · exact hw0 h
      · intro x i
        have := h2 x i
        simp only [dictVal, List.map_cons, List.sum_cons] at this ⊢
        rw [this]; ring

theorem accum_total {n : Nat} {sz : Nat → Nat} {V : List Nat} {d : Dict K} {v : Nat} {m : Mat K}
    (hd : DictOK n sz V d) (hm : m.rows = n ∧ m.cols = sz v ∧ v ∈ V) : ∃ d', d.accum v m = some d' := by
  induction d with
  | nil => exact ⟨_, rfl⟩
  | cons p rest ih =>
    obtain ⟨w, k⟩ := p
    have hp := hd.1 (w, k) (by simp)
    have hrest : DictOK n sz V rest := ⟨fun p h => hd.1 p (by simp [h]), (List.nodup_cons.1 hd.2).2⟩
    simp only [Dict.accum]
    split
    · rename_i hw
      subst hw
      refine ⟨_, Option.bind_eq_some_iff.2 ⟨_, by unfold Mat.add; rw [if_pos ⟨hp.1.trans hm.1.symm, hp.2.1.trans hm.2.1.symm⟩], rfl⟩⟩
    · obtain ⟨r, hr⟩ := ih hrest
      exact ⟨_, Option.bind_eq_some_iff.2 ⟨r, hr, rfl⟩⟩

theorem foldl_spec {n : Nat} {sz : Nat → Nat} {V : List Nat} {B d d' : Dict K}
    (hd : DictOK n sz V d) (hB : DictOK n sz V B)
    (h : B.foldlM (fun d p => Dict.accum d p.1 p.2) d = some d') :
    DictOK n sz V d' ∧ ∀ x i, dictVal x i d' = dictVal x i d + dictVal x i B := by
  induction B generalizing d with
  | nil =>
    simp only [List.foldlM_nil] at h
    obtain rfl := Option.some.inj h
    exact ⟨hd, by simp [dictVal]⟩
  | cons p rest ih =>
    rw [List.foldlM_cons] at h
    obtain ⟨d1, h1, h⟩ := Option.bind_eq_some_iff.1 h
    obtain ⟨o1, v1⟩ := accum_spec hd (hB.1 p (by simp)) h1
    obtain ⟨o2, v2⟩ := ih o1 ⟨fun p h => hB.1 p (by simp [h]), (List.nodup_cons.1 hB.2).2⟩ h
    refine ⟨o2, fun x i => ?_⟩
    rw [v2, v1]
    simp only [dictVal, List.map_cons, List.sum_cons]
    ring

theorem foldl_total {n : Nat} {sz : Nat → Nat} {V : List Nat} {B d : Dict K}
    (hd : DictOK n sz V d) (hB : DictOK n sz V B) :
    ∃ d', B.foldlM (fun d p => Dict.accum d p.1 p.2) d = some d' := by
  induction B generalizing d with
  | nil => exact ⟨d, rfl⟩
  | cons p rest ih =>
    obtain ⟨d1, h1⟩ := accum_total hd (hB.1 p (by simp))
    obtain ⟨o1, _⟩ := accum_spec hd (hB.1 p (by simp)) h1
    obtain ⟨d', h2⟩ := ih o1 ⟨fun p h => hB.1 p (by simp [h]), (List.nodup_cons.1 hB.2).2⟩
    exact ⟨d', by rw [List.foldlM_cons]; exact Option.bind_eq_some_iff.2 ⟨d1, h1, h2⟩⟩

omit [Field K] [DecidableEq K] in
theorem dictMapM_cons {f : Mat K → Option (Mat K)} {p : Nat × Mat K} {rest d' : Dict K}
    (h : Dict.mapM f (p :: rest) = some d') :
    ∃ m r, f p.2 = some m ∧ Dict.mapM f rest = some r ∧ d' = (p.1, m) :: r := by
  simp only [Dict.mapM, List.mapM_cons, Option.bind_eq_bind, Option.bind_eq_some_iff] at h
  obtain ⟨q, hq, r, hr, h⟩ := h
  obtain ⟨m, hm, rfl⟩ := Option.map_eq_some_iff.1 hq
  exact ⟨m, r, hm, hr, (Option.some.inj h).symm⟩

/-- Mapping a linear operation over the blocks. -/
theorem mapM_spec {n n' : Nat} {sz : Nat → Nat} {V : List Nat} {f : Mat K → Option (Mat K)} {d d' : Dict K}
    (hd : DictOK n sz V d) (w : Nat → (Nat → K) → K) (hw0 : ∀ i, w i (fun _ => 0) = 0)
    (hwadd : ∀ i a b, w i (fun k => a k + b k) = w i a + w i b)
    (hf : ∀ p ∈ d, ∀ m', f p.2 = some m' → m'.rows = n' ∧ m'.cols = p.2.cols ∧
      ∀ x i, i < n' → rowVal x i (p.1, m') = w i (fun k => rowVal x k p))
    (h : d.mapM f = some d') :
    DictOK n' sz V d' ∧ (d'.map Prod.fst = d.map Prod.fst) ∧
      ∀ x i, i < n' → dictVal x i d' = w i (fun k => dictVal x k d) := by
  induction d generalizing d' with
  | nil =>
    simp only [Dict.mapM, List.mapM_nil] at h
    obtain rfl := Option.some.inj h
    exact ⟨⟨by simp, by simp⟩, rfl, by simp [dictVal, hw0]⟩
  | cons p rest ih =>
    obtain ⟨m, r, hm, hr, rfl⟩ := dictMapM_cons h
    have hp := hd.1 p (by simp)
    obtain ⟨o1, k1, v1⟩ := ih ⟨fun p h => hd.1 p (by simp [h]), (List.nodup_cons.1 hd.2).2⟩
      (fun q hq => hf q (by simp [hq])) hr
    obtain ⟨a1, a2, a3⟩ := hf p (by simp) m hm
    refine ⟨⟨?_, ?_⟩, by simp [k1], ?_⟩
    · intro q hq
      rcases List.mem_cons.1 hq with rfl | hq
      · exact ⟨a1, a2.trans hp.2.1, hp.2.2⟩
      · exact o1.1 q hq
    · have := hd.2
      simp only [List.map_cons, k1] at this ⊢
      exact this
    · intro x i hi
      simp only [dictVal, List.map_cons, List.sum_cons] at v1 ⊢
      rw [a3 x i hi, v1 x i hi, hwadd]

omit [Field K] [DecidableEq K] in
theorem mapM_total {f : Mat K → Option (Mat K)} {d : Dict K} (hf : ∀ p ∈ d, ∃ m, f p.2 = some m) :
    ∃ d', d.mapM f = some d' := by
  induction d with
  | nil => exact ⟨[], rfl⟩
  | cons p rest ih =>
    obtain ⟨m, hm⟩ := hf p (by simp)
    obtain ⟨r, hr⟩ := ih (fun q hq => hf q (by simp [hq]))
    refine ⟨(p.1, m) :: r, ?_⟩
    simp only [Dict.mapM, List.mapM_cons, Option.bind_eq_bind, Option.bind_eq_some_iff] at hr ⊢
    exact ⟨_, by rw [hm]; rfl, r, hr, rfl⟩

omit [DecidableEq K] in
/-- A matrix applied to the blocks. -/
theorem mul_rowVal {N m m' : Mat K} (h : N.mul m = some m') :
    N.cols = m.rows ∧ m'.rows = N.rows ∧ m'.cols = m.cols ∧
    ∀ x v i, rowVal x i (v, m') = ∑ k ∈ Finset.range N.cols, N.e i k * rowVal x k (v, m) := by
  unfold Mat.mul at h
  split at h
  · rename_i hs
    obtain rfl := Option.some.inj h
    refine ⟨hs, rfl, rfl, fun x v i => ?_⟩
    simp only [rowVal, Finset.sum_mul, Finset.mul_sum]
    rw [Finset.sum_comm]
    exact Finset.sum_congr rfl fun k _ => Finset.sum_congr rfl fun j _ => by ring
  · simp at h

end Dedalus.Mats
