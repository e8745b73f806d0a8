import Verif.Symb.Split

/-! Helper lemmas for linearity and replacement. -/

namespace Dedalus.Symb

variable {K X : Type} [Field K] [DecidableEq K]

omit [DecidableEq K] in
/-- The value depends only on the fields mentioned. -/
theorem eval_congr (S : Sem K X) {e : Expr K} {env env' : Nat → X → K}
    (h : ∀ i, Mentions (.fld i) e → env i = env' i) : eval S env e = eval S env' e := by
  induction e with
  | num c => rfl
  | fld i s => exact h i rfl
  | cst s c => rfl
  | add a b iha ihb =>
    simp only [eval]
    rw [iha (fun i m => h i (Or.inl m)), ihb (fun i m => h i (Or.inr m))]
  | prod p a b iha ihb =>
    simp only [eval]
    rw [iha (fun i m => h i (Or.inl m)), ihb (fun i m => h i (Or.inr m))]
  | lin o a iha => simp only [eval]; rw [iha (fun i m => h i (Or.inr m))]
  | un f a iha => simp only [eval]; rw [iha h]
  | pow a p iha => simp only [eval]; rw [iha h]

theorem eval_indep (S : Sem K X) {V : List Nat} {e : Expr K} (h : has (V.map Var.fld) e = false)
    (env u w : Nat → X → K) : eval S (withVars V env u) e = eval S (withVars V env w) e := by
  apply eval_congr
  intro i m
  have : i ∉ V := by
    intro hi
    rw [has_of_mentions (vars := V.map Var.fld) (by simp [hi]) m] at h
    simp at h
  simp [withVars, this]

theorem linear_core (S : Sem K X) {V : List Nat} {affine : Bool} {e : Expr K}
    (h : linearOK (V.map Var.fld) affine e = true) (env u w : Nat → X → K) (c d : K)
    (hcd : affine = true → c + d = 1) :
    eval S (withVars V env (c • u + d • w)) e =
      c • eval S (withVars V env u) e + d • eval S (withVars V env w) e := by
  have aff : ∀ v : X → K, affine = true → v = c • v + d • v := by
    intro v ha; rw [← add_smul, hcd ha, one_smul]
  induction e with
  | num c => simp [linearOK] at h
  | fld i s =>
    by_cases hi : i ∈ V
    · simp [eval, withVars, hi]
    · simp only [eval, withVars, hi, if_false]
      apply aff
      simpa [linearOK, hi] using h
  | cst s c' => exact aff _ (by simpa [linearOK] using h)
  | add a b iha ihb =>
    simp only [linearOK, Bool.and_eq_true] at h
    simp only [eval]
    rw [iha h.1, ihb h.2]
    simp only [smul_add]; abel
  | prod p a b iha ihb =>
    simp only [linearOK] at h
    simp only [eval]
    cases ha : has (V.map Var.fld) a <;> cases hb : has (V.map Var.fld) b <;>
      simp only [ha, hb, Bool.and_true, Bool.and_false, Bool.and_self, if_true, Bool.false_eq_true, if_false] at h
    · rw [eval_indep S ha env _ u, eval_indep S hb env _ u, eval_indep S ha env w u, eval_indep S hb env w u]
      exact aff _ h
    · rw [ihb h, eval_indep S ha env _ u, eval_indep S ha env w u]
      simp only [map_add, map_smul]
    · rw [iha h, eval_indep S hb env _ u, eval_indep S hb env w u]
      simp only [map_add, map_smul, LinearMap.add_apply, LinearMap.smul_apply]
  | lin o a iha =>
    simp only [eval]
    rw [iha (by simpa [linearOK] using h)]
    simp only [map_add, map_smul]
  | un f a iha =>
    simp only [linearOK] at h
    split at h
    · simp at h
    · rename_i hh
      have hh := Bool.eq_false_iff.2 hh
      rw [eval_indep S hh env _ u, eval_indep S hh env w u]
      exact aff _ h
  | pow a p iha =>
    simp only [linearOK] at h
    split at h
    · simp at h
    · rename_i hh
      have hh := Bool.eq_false_iff.2 hh
      rw [eval_indep S hh env _ u, eval_indep S hh env w u]
      exact aff _ h

/-! ### Replacement -/

omit [DecidableEq K] in
theorem newUn_eq {f : UF} {a r : Expr K} (h : newUn f a = some r) : a.isOperand = true ∧ r = .un f a := by
  unfold newUn at h; split at h
  · exact ⟨by assumption, (Option.some.inj h).symm⟩
  · simp at h

omit [DecidableEq K] in
theorem newPow_eq {p : K} {a r : Expr K} (h : newPow a p = some r) : a.isOperand = true ∧ r = .pow a p := by
  unfold newPow at h; split at h
  · exact ⟨by assumption, (Option.some.inj h).symm⟩
  · simp at h

omit [DecidableEq K] in
theorem Ty.operand {G : Nat → Sig} {s : Sig} {a : Expr K} (h : Ty G s a) (ho : a.isOperand = true) :
    WF G a ∧ a.sig = s := by
  rcases h with rfl | ⟨c, rfl, _⟩ | h
  · simp at ho
  · simp at ho
  · exact h

theorem replace_spec {G : Nat → Sig} {x : Nat} {r e e' : Expr K} (hr : Ty G (G x) r)
    (hw : WF G e ∨ ∃ c, e = .num c) (h : replace x r e = some e') :
    Ty G e.sig e' ∧
    (∀ {X : Type} (S : Sem K X) (env : Nat → X → K),
      eval S env e' = eval S (setVal env x (eval S env r)) e) ∧
    (∀ v, Mentions v e' → Mentions v r ∨ (Mentions v e ∧ v ≠ .fld x)) := by
  induction e generalizing e' with
  | num c =>
    simp only [replace, Option.some.injEq] at h; subst h
    exact ⟨arg_ty (Or.inr ⟨c, rfl⟩), fun S env => rfl, by simp [Mentions]⟩
  | fld i s =>
    have hw : s = G i := by simpa [WF] using hw
    simp only [replace] at h
    split at h <;> obtain rfl := Option.some.inj h
    · rename_i hi; subst hi
      exact ⟨by simpa [Expr.sig, hw] using hr, fun S env => by simp [eval, setVal], fun v m => Or.inl m⟩
    · rename_i hi
      refine ⟨Ty.of_wf hw, fun S env => by simp [eval, setVal, hi], ?_⟩
      intro v m; exact Or.inr ⟨m, by simp only [Mentions] at m; subst m; simpa using hi⟩
  | cst s c =>
    simp only [replace, Option.some.injEq] at h; subst h
    exact ⟨Ty.of_wf (by simp [WF]), fun S env => rfl, by simp [Mentions]⟩
  | add a b iha ihb =>
    have hw : WF G a ∧ WF G b ∧ a.sig = b.sig := by simpa [WF] using hw
    simp only [replace, Option.bind_eq_bind, Option.bind_eq_some_iff] at h
    obtain ⟨a', ha, b', hb, h⟩ := h
    obtain ⟨ta, va, ma⟩ := iha (Or.inl hw.1) ha
    obtain ⟨tb, vb, mb⟩ := ihb (Or.inl hw.2.1) hb
    rw [← hw.2.2] at tb
    obtain ⟨r', e1, t1⟩ := mkAdd_ty ta tb
    have hrr : r' = e' := Option.some.inj (e1.symm.trans h)
    subst hrr
    refine ⟨t1, fun S env => by rw [mkAdd_eval S env h, va, vb]; rfl, ?_⟩
    intro v m
    rcases mkAdd_mentions h m with m | m
    · rcases ma v m with m | ⟨m, n⟩
      · exact Or.inl m
      · exact Or.inr ⟨Or.inl m, n⟩
    · rcases mb v m with m | ⟨m, n⟩
      · exact Or.inl m
      · exact Or.inr ⟨Or.inr m, n⟩
  | prod p a b iha ihb =>
    have hw' : WF G (.prod p a b) := by simpa using hw
    obtain ⟨hwa, hwb, hf⟩ := wf_prod_args hw'
    simp only [replace, Option.bind_eq_bind, Option.bind_eq_some_iff] at h
    obtain ⟨a', ha, b', hb, h⟩ := h
    obtain ⟨ta, va, ma⟩ := iha hwa ha
    obtain ⟨tb, vb, mb⟩ := ihb (Or.inl hwb) hb
    obtain ⟨r', e1, t1⟩ := newProd_ty ta tb hf
    have hrr : r' = e' := Option.some.inj (e1.symm.trans h)
    subst hrr
    refine ⟨t1, fun S env => by rw [newProd_eval S env h, bil_ty S env ta tb, va, vb]; rfl, ?_⟩
    intro v m
    rcases newProd_mentions h m with m | m
    · rcases ma v m with m | ⟨m, n⟩
      · exact Or.inl m
      · exact Or.inr ⟨Or.inl m, n⟩
    · rcases mb v m with m | ⟨m, n⟩
      · exact Or.inl m
      · exact Or.inr ⟨Or.inr m, n⟩
  | lin o a iha =>
    have hw : WF G a ∧ ((o.kind = .keeps ∨ o.kind = .passes) → o.rule = .same) := by simpa [WF] using hw
    simp only [replace, Option.bind_eq_bind, Option.bind_eq_some_iff] at h
    obtain ⟨a', ha, h⟩ := h
    obtain ⟨ta, va, ma⟩ := iha (Or.inl hw.1) ha
    refine ⟨newLin_ty ta hw.2 h, fun S env => by rw [newLin_eval S env h, lin_ty S env ta, va]; rfl, ?_⟩
    intro v m
    rcases newLin_mentions h m with rfl | m
    · exact Or.inr ⟨Or.inl rfl, by simp⟩
    · rcases ma v m with m | ⟨m, n⟩
      · exact Or.inl m
      · exact Or.inr ⟨Or.inr m, n⟩
  | un f a iha =>
    have hw : WF G a := by simpa [WF] using hw
    simp only [replace, Option.bind_eq_bind, Option.bind_eq_some_iff] at h
    obtain ⟨a', ha, h⟩ := h
    obtain ⟨ta, va, ma⟩ := iha (Or.inl hw) ha
    obtain ⟨ho, rfl⟩ := newUn_eq h
    obtain ⟨w, s⟩ := ta.operand ho
    exact ⟨Or.inr (Or.inr ⟨w, s⟩), fun S env => by simp only [eval]; rw [va], ma⟩
  | pow a p iha =>
    have hw : WF G a := by simpa [WF] using hw
    simp only [replace, Option.bind_eq_bind, Option.bind_eq_some_iff] at h
    obtain ⟨a', ha, h⟩ := h
    obtain ⟨ta, va, ma⟩ := iha (Or.inl hw) ha
    obtain ⟨ho, rfl⟩ := newPow_eq h
    obtain ⟨w, s⟩ := ta.operand ho
    exact ⟨Or.inr (Or.inr ⟨w, s⟩), fun S env => by simp only [eval]; rw [va], ma⟩

/-! ### Splitting a linear expression -/

theorem newLin_zero {o : Op} {r : Expr K} (h : newLin o (.num 0) = some r) : r = .num 0 := by
  rcases newLin_cases h with ⟨_, rfl⟩ | ⟨h, _⟩ | ⟨_, rfl | rfl⟩
  · rfl
  · simp at h
  · rfl
  · rfl

theorem prodTerm_zero_left {q : PKind} {b r : Expr K} (h : prodTerm q (.num 0) b = some r) : r = .num 0 := by
  simp [prodTerm, Expr.truthy] at h; exact h.symm

theorem prodTerm_zero_right {q : PKind} {a r : Expr K} (h : prodTerm q a (.num 0) = some r) : r = .num 0 := by
  simp [prodTerm, Expr.truthy] at h; exact h.symm

/-- An expression without the variables has an empty first part. -/
theorem split_not_has {vars : List Var} {e p n : Expr K} (hh : has vars e = false)
    (h : split vars e = some (p, n)) : p = .num 0 := by
  induction e generalizing p n with
  | num c => simp [split] at h; exact h.1.symm
  | fld i s =>
    simp only [has, Bool.or_eq_false_iff] at hh
    simp [split] at h
    split at h
    · rename_i hc; simp [hc] at hh
    · simp at h; exact h.1.symm
  | cst s c => simp [split] at h; exact h.1.symm
  | add a b iha ihb =>
    simp only [has, Bool.or_eq_false_iff] at hh
    simp only [split, Option.bind_eq_bind, Option.bind_eq_some_iff, pySum_two, Option.some.injEq,
      Prod.mk.injEq, Prod.exists] at h
    obtain ⟨pa, na, ha, pb, nb, hb, p', hp, n', hn, rfl, rfl⟩ := h
    obtain rfl := iha hh.1 ha
    obtain rfl := ihb hh.2 hb
    rw [mkAdd_zero_left] at hp; exact (Option.some.inj hp).symm
  | prod q a b iha ihb =>
    simp only [has, Bool.or_eq_false_iff] at hh
    have h' := h
    simp only [split, Option.bind_eq_bind, Option.bind_eq_some_iff, Prod.exists] at h'
    obtain ⟨pa, na, ha, pb, nb, hb, _⟩ := h'
    obtain ⟨t1, t2, t3, t12, h1, h2, h3, h4, h5, h6⟩ := split_prod ha hb h
    obtain rfl := iha hh.1 ha
    obtain rfl := ihb hh.2 hb
    obtain rfl := prodTerm_zero_left h1
    obtain rfl := prodTerm_zero_left h2
    obtain rfl := prodTerm_zero_right h3
    rw [mkAdd_zero_left] at h5; obtain rfl := Option.some.inj h5
    rw [mkAdd_zero_left] at h6; exact (Option.some.inj h6).symm
  | lin o a iha =>
    simp only [has, Bool.or_eq_false_iff] at hh
    simp only [split, hh.1, Bool.false_eq_true, if_false, Option.bind_eq_bind, Option.bind_eq_some_iff,
      Option.some.injEq, Prod.mk.injEq, Prod.exists] at h
    obtain ⟨pa, na, ha, p', hp, n', hn, rfl, rfl⟩ := h
    obtain rfl := iha hh.2 ha
    exact newLin_zero hp
  | un f a iha => simp only [split, hh, Bool.false_eq_true, if_false] at h; simp at h; exact h.1.symm
  | pow a k iha => simp only [split, hh, Bool.false_eq_true, if_false] at h; simp at h; exact h.1.symm

/-- The first part of an expression accepted as affine vanishes where the variables do. -/
theorem split_affine_zero {G : Nat → Sig} {V : List Nat} {e p n : Expr K}
    (hw : WF G e ∨ ∃ c, e = .num c) (hl : linearOK (V.map Var.fld) true e = true)
    (h : split (V.map Var.fld) e = some (p, n)) (S : Sem K X) (env : Nat → X → K) :
    eval S (withVars V env 0) p = 0 := by
  induction e generalizing p n with
  | num c => simp [linearOK] at hl
  | fld i s =>
    simp only [split] at h
    split at h <;> simp only [Option.some.injEq, Prod.mk.injEq] at h <;> obtain ⟨rfl, rfl⟩ := h
    · rename_i hc
      have : i ∈ V := by simpa using hc
      simp [eval, withVars, this]
    · rfl
  | cst s c => simp [split] at h; rw [← h.1]; rfl
  | add a b iha ihb =>
    have hw : WF G a ∧ WF G b ∧ a.sig = b.sig := by simpa [WF] using hw
    simp only [linearOK, Bool.and_eq_true] at hl
    simp only [split, Option.bind_eq_bind, Option.bind_eq_some_iff, pySum_two, Option.some.injEq,
      Prod.mk.injEq, Prod.exists] at h
    obtain ⟨pa, na, ha, pb, nb, hb, p', hp, n', hn, rfl, rfl⟩ := h
    rw [mkAdd_eval S _ hp, iha (Or.inl hw.1) hl.1 ha, ihb (Or.inl hw.2.1) hl.2 hb, add_zero]
  | prod q a b iha ihb =>
    have hw' : WF G (.prod q a b) := by simpa using hw
    obtain ⟨hwa, hwb, hf⟩ := wf_prod_args hw'
    have h' := h
    simp only [split, Option.bind_eq_bind, Option.bind_eq_some_iff, Prod.exists] at h'
    obtain ⟨pa, na, ha, pb, nb, hb, _⟩ := h'
    obtain ⟨t1, t2, t3, t12, h1, h2, h3, h4, h5, h6⟩ := split_prod ha hb h
    simp only [linearOK] at hl
    have key : ∀ (x y : Expr K) (r : Expr K), (eval S (withVars V env 0) x = 0 ∨ eval S (withVars V env 0) y = 0) →
        prodTerm q x y = some r → eval S (withVars V env 0) r = 0 := by
      intro x y r hxy hr
      rw [prodTerm_eval S _ hr]
      rcases hxy with h | h <;> simp [h]
    have z : ∀ {p : Expr K}, p = .num 0 → eval S (withVars V env 0) p = 0 := by rintro p rfl; rfl
    have pa0 : eval S (withVars V env 0) pa = 0 := by
      cases hha : has (V.map Var.fld) a
      · exact z (split_not_has hha ha)
      · cases hhb : has (V.map Var.fld) b
        · exact iha hwa (by simpa [hha, hhb] using hl) ha
        · simp [hha, hhb] at hl
    have pb0 : eval S (withVars V env 0) pb = 0 := by
      cases hhb : has (V.map Var.fld) b
      · exact z (split_not_has hhb hb)
      · cases hha : has (V.map Var.fld) a
        · exact ihb (Or.inl hwb) (by simpa [hha, hhb] using hl) hb
        · simp [hha, hhb] at hl
    rw [mkAdd_eval S _ h6, mkAdd_eval S _ h5, key _ _ _ (Or.inl pa0) h1, key _ _ _ (Or.inl pa0) h2,
      key _ _ _ (Or.inr pb0) h3]
    simp
  | lin o a iha =>
    have hw : WF G a ∧ ((o.kind = .keeps ∨ o.kind = .passes) → o.rule = .same) := by simpa [WF] using hw
    have hc : (V.map Var.fld).contains (.cls o.cls) = false := by
      simp
    simp only [split, hc, Bool.false_eq_true, if_false, Option.bind_eq_bind, Option.bind_eq_some_iff,
      Option.some.injEq, Prod.mk.injEq, Prod.exists] at h
    obtain ⟨pa, na, ha, p', hp, n', hn, rfl, rfl⟩ := h
    rw [newLin_eval S _ hp, iha (Or.inl hw.1) (by simpa [linearOK] using hl) ha, map_zero]
  | un f a iha =>
    simp only [linearOK] at hl
    split at hl
    · simp at hl
    · rename_i hh
      have hh := Bool.eq_false_iff.2 hh
      rw [split_not_has hh h]; rfl
  | pow a k iha =>
    simp only [linearOK] at hl
    split at hl
    · simp at hl
    · rename_i hh
      have hh := Bool.eq_false_iff.2 hh
      rw [split_not_has hh h]; rfl

end Dedalus.Symb
