import Verif.Mats.Lemmas
import Verif.Symb.Spec

/-! The matrices of an expression represent it. -/

namespace Dedalus.Mats

open Dedalus.Symb hiding eval Sem

variable {K X : Type} [Field K] [DecidableEq K]

/-- The model's product branch, for everything except a number times an operand. -/
theorem exprMats_prod {S : Sub K} {vars : List (Nat × Sig)} {p : PKind} {a b : Expr K}
    (hn : ∀ c, ¬ (p = .mul ∧ a = .num c)) :
    exprMats S vars (.prod p a b) =
      (if has (vars.map (fun v => Var.fld v.1)) a && has (vars.map (fun v => Var.fld v.1)) b then none
       else if has (vars.map (fun v => Var.fld v.1)) a then do
         let A ← exprMats S vars a
         let N ← S.nccMat p b a false
         A.mapM (fun m => N.mul m)
       else if has (vars.map (fun v => Var.fld v.1)) b then do
         let B ← exprMats S vars b
         let N ← S.nccMat p a b true
         B.mapM (fun m => N.mul m)
       else none) := by
  cases p with
  | mul =>
    cases a with
    | num c => exact absurd ⟨rfl, rfl⟩ (hn c)
    | _ => simp only [exprMats]
  | dot i j => simp only [exprMats]
  | cross => simp only [exprMats]

omit [DecidableEq K] in
theorem eval_prod {T : Sem K X} {env : Nat → X → K} {p : PKind} {a b : Expr K}
    (hn : ∀ c, ¬ (p = .mul ∧ a = .num c)) :
    eval T env (.prod p a b) = T.bil p a b (eval T env a) (eval T env b) := by
  cases p with
  | mul =>
    cases a with
    | num c => exact absurd ⟨rfl, rfl⟩ (hn c)
    | _ => simp only [eval]
  | dot i j => simp only [eval]
  | cross => simp only [eval]

theorem good_prod {S : Sub K} {idx : Expr K → Nat → X} {T : Sem K X} {env : Nat → X → K} {p : PKind} {a b : Expr K}
    (hn : ∀ c, ¬ (p = .mul ∧ a = .num c)) (h : Good S idx T env (.prod p a b)) :
    Good S idx T env a ∧ Good S idx T env b ∧
      (∀ m, S.nccMat p b a false = some m → Acts S idx m ((T.bil p a b).flip (eval T env b)) a (.prod p a b)) ∧
      (∀ m, S.nccMat p a b true = some m → Acts S idx m (T.bil p a b (eval T env a)) b (.prod p a b)) := by
  cases p with
  | mul =>
    cases a with
    | num c => exact absurd ⟨rfl, rfl⟩ (hn c)
    | _ => simpa only [Good] using h
  | dot i j => simpa only [Good] using h
  | cross => simpa only [Good] using h

/-- Applying a matrix that acts like `f` to the blocks of `a`. -/
theorem apply_op {S : Sub K} {idx : Expr K → Nat → X} {G : Nat → Sig} {V : List Nat} {N : Mat K}
    {f : (X → K) →ₗ[K] (X → K)} {a out : Expr K} {A D : Dict K} {x : Nat → Nat → K} {u : X → K}
    (hact : Acts S idx N f a out)
    (hA : DictOK (S.size a) (fun v => S.size (.fld v (G v))) V A)
    (hv : ∀ i, i < S.size a → u (idx a i) = dictVal x i A)
    (h : A.mapM (fun m => N.mul m) = some D) :
    DictOK (S.size out) (fun v => S.size (.fld v (G v))) V D ∧
      ∀ i, i < S.size out → f u (idx out i) = dictVal x i D := by
  obtain ⟨o, _, val⟩ := mapM_spec (n' := S.size out) hA (fun i g => ∑ k ∈ Finset.range N.cols, N.e i k * g k)
    (by intro i; simp) (by intro i a b; simp [mul_add, Finset.sum_add_distrib])
    (by
      intro p _ m' hm
      obtain ⟨_, h2, h3, h4⟩ := mul_rowVal hm
      exact ⟨h2.trans hact.rows, h3, fun x i _ => h4 x p.1 i⟩) h
  refine ⟨o, fun i hi => ?_⟩
  rw [hact.act u i hi, val x i hi, hact.cols]
  exact Finset.sum_congr rfl fun j hj => by rw [hv j (Finset.mem_range.1 hj)]

theorem exprMats_spec (S : Sub K) (idx : Expr K → Nat → X) (T : Sem K X) (env : Nat → X → K) (G : Nat → Sig)
    {vars : List (Nat × Sig)} (hG : ∀ v ∈ vars, v.2 = G v.1) (hnd : (vars.map Prod.fst).Nodup)
    {e : Expr K} {D : Dict K} (hg : Good S idx T env e) (h : exprMats S vars e = some D) :
    DictOK (S.size e) (fun v => S.size (.fld v (G v))) (vars.map Prod.fst) D ∧
      ∀ i, i < S.size e → eval T env e (idx e i) = dictVal (fun v j => env v (idx (.fld v (G v)) j)) i D := by
  induction e generalizing D with
  | num c => simp [exprMats] at h
  | fld i s =>
    simp only [exprMats] at h
    split at h
    · rename_i hi
      obtain rfl := Option.some.inj h
      have hs : s = G i := hG _ hi
      subst hs
      refine ⟨⟨?_, by simp⟩, ?_⟩
      · intro p hp
        obtain rfl := List.mem_singleton.1 hp
        exact ⟨rfl, rfl, List.mem_map.2 ⟨_, hi, rfl⟩⟩
      · intro k hk
        simp only [dictVal, rowVal, Mat.ident, List.map_cons, List.map_nil, List.sum_cons, List.sum_nil, add_zero,
          ite_mul, one_mul, zero_mul, eval]
        rw [Finset.sum_ite_eq]
        simp [hk]
    · simp at h
  | cst s c => simp [exprMats] at h
  | add a b iha ihb =>
    obtain ⟨ga, gb, sa, sb, hidx⟩ := hg
    simp only [exprMats, Option.bind_eq_bind, Option.bind_eq_some_iff] at h
    obtain ⟨A, hA, B, hB, d, hd, h⟩ := h
    obtain ⟨oA, vA⟩ := iha ga hA
    obtain ⟨oB, vB⟩ := ihb gb hB
    rw [sa] at oA vA
    rw [sb] at oB vB
    obtain ⟨o1, v1⟩ := foldl_spec (d := []) ⟨by simp, by simp⟩ oA hd
    obtain ⟨o2, v2⟩ := foldl_spec o1 oB h
    refine ⟨o2, fun i hi => ?_⟩
    have e1 := vA i hi
    have e2 := vB i hi
    rw [(hidx i hi).1] at e1
    rw [(hidx i hi).2] at e2
    simp only [eval, Pi.add_apply]
    rw [v2, v1, e1, e2]
    simp [dictVal]
  | prod p a b iha ihb =>
    by_cases hn : ∃ c, p = .mul ∧ a = .num c
    · obtain ⟨c, rfl, rfl⟩ := hn
      obtain ⟨gb, sb, hidx⟩ := hg
      simp only [exprMats, Option.bind_eq_bind, Option.bind_eq_some_iff] at h
      obtain ⟨B, hB, h⟩ := h
      obtain ⟨oB, vB⟩ := ihb gb hB
      obtain ⟨o, _, val⟩ := mapM_spec (n' := S.size b) oB (fun i g => c * g i) (by simp) (by intro i a b; ring)
        (by
          intro p hp m' hm
          obtain rfl := Option.some.inj hm
          refine ⟨(oB.1 p hp).1, rfl, fun x i _ => ?_⟩
          simp only [rowVal, Mat.smul, Finset.mul_sum]
          exact Finset.sum_congr rfl fun j _ => by ring) h
      rw [← sb]
      refine ⟨o, fun i hi => ?_⟩
      rw [hidx i hi, val _ i hi]
      change _ = c * dictVal _ i B
      rw [← vB i hi]
      simp [eval]
    · have hn : ∀ c, ¬ (p = .mul ∧ a = .num c) := fun c h => hn ⟨c, h⟩
      obtain ⟨ga, gb, n1, n2⟩ := good_prod hn hg
      rw [exprMats_prod hn] at h
      rw [eval_prod hn]
      split at h
      · simp at h
      · split at h
        · simp only [Option.bind_eq_bind, Option.bind_eq_some_iff] at h
          obtain ⟨A, hA, N, hN, h⟩ := h
          obtain ⟨oA, vA⟩ := iha ga hA
          have := apply_op (n1 N hN) oA vA h
          simpa using this
        · split at h
          · simp only [Option.bind_eq_bind, Option.bind_eq_some_iff] at h
            obtain ⟨B, hB, N, hN, h⟩ := h
            obtain ⟨oB, vB⟩ := ihb gb hB
            exact apply_op (n2 N hN) oB vB h
          · simp at h
  | lin o a iha =>
    obtain ⟨ga, hact⟩ := hg
    simp only [exprMats] at h
    split at h
    · rename_i h0
      obtain rfl := Option.some.inj h
      refine ⟨⟨?_, by simpa [Function.comp_def] using hnd⟩, by simp [h0]⟩
      intro p hp
      obtain ⟨v, hv, rfl⟩ := List.mem_map.1 hp
      exact ⟨h0.symm, by simp [Mat.zeros, hG v hv], List.mem_map.2 ⟨v, hv, rfl⟩⟩
    · rename_i h0
      simp only [Option.bind_eq_bind, Option.bind_eq_some_iff] at h
      obtain ⟨A, hA, N, hN, h⟩ := h
      obtain ⟨oA, vA⟩ := iha ga hA
      exact apply_op (hact h0 N hN) oA vA h
  | un f a _ => simp [exprMats] at h
  | pow a p _ => simp [exprMats] at h

/-- The methods succeed on every expression accepted as linear, if the operators provide their matrices. -/
theorem exprMats_total (S : Sub K) (idx : Expr K → Nat → X) (T : Sem K X) (env : Nat → X → K) (G : Nat → Sig)
    {vars : List (Nat × Sig)} (hG : ∀ v ∈ vars, v.2 = G v.1) (hnd : (vars.map Prod.fst).Nodup)
    (hop : ∀ o a, ∃ m, S.opMat o a = some m) (hncc : ∀ p a b f, ∃ m, S.nccMat p a b f = some m)
    {e : Expr K} (hw : WF G e) (hg : Good S idx T env e)
    (hl : linearOK (vars.map (fun v => Var.fld v.1)) false e = true) : ∃ D, exprMats S vars e = some D := by
  have step : ∀ {a out : Expr K} {A : Dict K} {N : Mat K} {f : (X → K) →ₗ[K] (X → K)}, Acts S idx N f a out →
      DictOK (S.size a) (fun v => S.size (.fld v (G v))) (vars.map Prod.fst) A →
      ∃ D, A.mapM (fun m => N.mul m) = some D := by
    intro a out A N f hact hA
    apply mapM_total
    intro p hp
    exact ⟨_, by unfold Mat.mul; rw [if_pos (hact.cols.trans (hA.1 p hp).1.symm)]⟩
  induction e with
  | num c => simp [WF] at hw
  | fld i s =>
    simp only [linearOK, Bool.false_or, List.contains_iff_mem, List.mem_map] at hl
    obtain ⟨v, hv, hvi⟩ := hl
    have hvi : v.1 = i := by simpa using hvi
    have hs : s = G i := hw
    have : (i, s) ∈ vars := by
      rw [hs, ← hvi, ← hG v hv]; exact hv
    exact ⟨_, by simp only [exprMats]; rw [if_pos this]⟩
  | cst s c => simp [linearOK] at hl
  | add a b iha ihb =>
    obtain ⟨ga, gb, sa, sb, _⟩ := hg
    simp only [linearOK, Bool.and_eq_true] at hl
    obtain ⟨A, hA⟩ := iha hw.1 ga hl.1
    obtain ⟨B, hB⟩ := ihb hw.2.1 gb hl.2
    have oA := (exprMats_spec S idx T env G hG hnd ga hA).1
    have oB := (exprMats_spec S idx T env G hG hnd gb hB).1
    rw [sa] at oA
    rw [sb] at oB
    obtain ⟨d, hd⟩ := foldl_total (d := []) ⟨by simp, by simp⟩ oA
    have o1 := (foldl_spec (d := []) ⟨by simp, by simp⟩ oA hd).1
    obtain ⟨D, hD⟩ := foldl_total o1 oB
    refine ⟨D, ?_⟩
    simp only [exprMats, Option.bind_eq_bind, Option.bind_eq_some_iff]
    exact ⟨A, hA, B, hB, d, hd, hD⟩
  | prod p a b iha ihb =>
    by_cases hn : ∃ c, p = .mul ∧ a = .num c
    · obtain ⟨c, rfl, rfl⟩ := hn
      obtain ⟨gb, _, _⟩ := hg
      have hl : linearOK (vars.map (fun v => Var.fld v.1)) false b = true := by
        simp only [linearOK, has, Bool.false_and, Bool.false_eq_true, if_false] at hl
        split at hl
        · exact hl
        · simp at hl
      obtain ⟨B, hB⟩ := ihb hw.2 gb hl
      obtain ⟨D, hD⟩ := mapM_total (d := B) (f := fun m => some (m.smul c)) (fun p _ => ⟨_, rfl⟩)
      refine ⟨D, ?_⟩
      simp only [exprMats, Option.bind_eq_bind, Option.bind_eq_some_iff]
      exact ⟨B, hB, hD⟩
    · have hn : ∀ c, ¬ (p = .mul ∧ a = .num c) := fun c h => hn ⟨c, h⟩
      obtain ⟨ga, gb, n1, n2⟩ := good_prod hn hg
      have hw' : (∀ c, a ≠ .num c) ∧ WF G a ∧ WF G b := by
        cases a with
        | num c => exact absurd ⟨hw.1, rfl⟩ (hn c)
        | _ => exact ⟨by simp, hw.1, hw.2.1⟩
      simp only [linearOK] at hl
      rw [exprMats_prod hn]
      cases ha : has (vars.map (fun v => Var.fld v.1)) a <;> cases hb : has (vars.map (fun v => Var.fld v.1)) b <;>
        simp only [ha, hb, Bool.and_true, Bool.and_false, Bool.and_self, if_true, Bool.false_eq_true, if_false] at hl ⊢
      · obtain ⟨B, hB⟩ := ihb hw'.2.2 gb hl
        obtain ⟨N, hN⟩ := hncc p a b true
        obtain ⟨D, hD⟩ := step (n2 N hN) (exprMats_spec S idx T env G hG hnd gb hB).1
        exact ⟨D, by simp only [Option.bind_eq_bind, Option.bind_eq_some_iff]; exact ⟨B, hB, N, hN, hD⟩⟩
      · obtain ⟨A, hA⟩ := iha hw'.2.1 ga hl
        obtain ⟨N, hN⟩ := hncc p b a false
        obtain ⟨D, hD⟩ := step (n1 N hN) (exprMats_spec S idx T env G hG hnd ga hA).1
        exact ⟨D, by simp only [Option.bind_eq_bind, Option.bind_eq_some_iff]; exact ⟨A, hA, N, hN, hD⟩⟩
  | lin o a iha =>
    obtain ⟨ga, hact⟩ := hg
    simp only [exprMats]
    split
    · exact ⟨_, rfl⟩
    · rename_i h0
      obtain ⟨A, hA⟩ := iha hw.1 ga (by simpa [linearOK] using hl)
      obtain ⟨N, hN⟩ := hop o a
      obtain ⟨D, hD⟩ := step (hact h0 N hN) (exprMats_spec S idx T env G hG hnd ga hA).1
      exact ⟨D, by simp only [Option.bind_eq_bind, Option.bind_eq_some_iff]; exact ⟨A, hA, N, hN, hD⟩⟩
  | un f a _ => simp [linearOK] at hl
  | pow a p _ => simp [linearOK] at hl

end Dedalus.Mats
