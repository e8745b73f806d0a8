import Verif.Symb.Linear
import Verif.Symb.ProblemSpec

/-! Helper lemmas for the problem classes. -/

namespace Dedalus.Symb

variable {K X : Type} [Field K] [DecidableEq K]

theorem wfOrNum_of_ty {G : Nat → Sig} {s : Sig} {e : Expr K} (h : Ty G s e) : WF G e ∨ ∃ c, e = .num c := by
  rcases h with rfl | ⟨c, rfl, _⟩ | ⟨w, _⟩
  · exact Or.inr ⟨0, rfl⟩
  · exact Or.inr ⟨c, rfl⟩
  · exact Or.inl w

theorem not_has_of_not_mentions {v : Var} {e : Expr K} (h : ¬ Mentions v e) : has [v] e = false := by
  cases hh : has [v] e with
  | false => rfl
  | true =>
    obtain ⟨w, hw, m⟩ := mentions_of_has (by simp) hh
    simp only [List.mem_singleton] at hw; subst hw; exact absurd m h

theorem not_mentions_of_not_has {V : List Nat} {e : Expr K} (h : has (V.map Var.fld) e = false) :
    ∀ i ∈ V, ¬ Mentions (.fld i) e := by
  intro i hi m
  rw [has_of_mentions (vars := V.map Var.fld) (by simp [hi]) m] at h
  simp at h

/-! ### Rebuilding -/

omit [DecidableEq K] in
theorem rebuild_eq {G : Nat → Sig} [DecidableEq K] (x : Nat) {e : Expr K} (hw : WF G e ∨ ∃ c, e = .num c) :
    rebuild e = replace x (.fld x (G x)) e := by
  induction e with
  | num c => rfl
  | fld i s =>
    have hw : s = G i := by simpa [WF] using hw
    simp only [rebuild, replace]; split
    · rename_i h; subst h; rw [hw]
    · rfl
  | cst s c => rfl
  | add a b iha ihb =>
    have hw : WF G a ∧ WF G b ∧ a.sig = b.sig := by simpa [WF] using hw
    simp only [rebuild, replace, iha (Or.inl hw.1), ihb (Or.inl hw.2.1)]
  | prod p a b iha ihb =>
    have hw' : WF G (.prod p a b) := by simpa using hw
    obtain ⟨hwa, hwb, hf⟩ := wf_prod_args hw'
    simp only [rebuild, replace, iha hwa, ihb (Or.inl hwb)]
  | lin o a iha =>
    have hw : WF G a ∧ ((o.kind = .keeps ∨ o.kind = .passes) → o.rule = .same) := by simpa [WF] using hw
    simp only [rebuild, replace, iha (Or.inl hw.1)]
  | un f a iha =>
    have hw : WF G a := by simpa [WF] using hw
    simp only [rebuild, replace, iha (Or.inl hw)]
  | pow a p iha =>
    have hw : WF G a := by simpa [WF] using hw
    simp only [rebuild, replace, iha (Or.inl hw)]

theorem rebuild_spec {G : Nat → Sig} {e e' : Expr K} (hw : WF G e ∨ ∃ c, e = .num c) (h : rebuild e = some e') :
    Ty G e.sig e' ∧ (∀ {X : Type} (S : Sem K X) (env : Nat → X → K), eval S env e' = eval S env e) ∧
      (∀ c, Mentions (.cls c) e' → Mentions (.cls c) e) := by
  rw [rebuild_eq (G := G) 0 hw] at h
  obtain ⟨t, v, m⟩ := replace_spec (Ty.of_wf (by simp [WF])) hw h
  refine ⟨t, fun S env => ?_, fun c hc => ?_⟩
  · rw [v]; congr 1
    funext i
    unfold setVal; split
    · rename_i hi; subst hi; rfl
    · rfl
  · rcases m _ hc with m | m
    · simp [Mentions] at m
    · exact m.1

theorem reinit_spec {G : Nat → Sig} {s : Sig} {e e' : Expr K} (ht : Ty G s e) (h : reinit e = some e') :
    ∀ {X : Type} (S : Sem K X) (env : Nat → X → K), eval S env e' = eval S env e := by
  unfold reinit at h
  split at h
  · simp only [Option.bind_eq_bind, Option.bind_eq_some_iff] at h
    obtain ⟨r, hr, h⟩ := h
    split at h
    · obtain rfl := Option.some.inj h
      exact (rebuild_spec (wfOrNum_of_ty ht) hr).2.1
    · simp at h
  · obtain rfl := Option.some.inj h; intros; rfl

/-! ### Replacement of an operator class -/

/-- Two interpretations that differ at most in the operators of class `c`. -/
def AgreeOff (c : Nat) (S S' : Sem K X) : Prop :=
  S'.bil = S.bil ∧ (∀ o s, o.cls ≠ c → S'.lin o s = S.lin o s) ∧ S'.un = S.un ∧ S'.pw = S.pw

omit [DecidableEq K] in
theorem eval_agree {c : Nat} {S S' : Sem K X} (h : AgreeOff c S S') (env : Nat → X → K) {e : Expr K}
    (hm : ¬ Mentions (.cls c) e) : eval S' env e = eval S env e := by
  obtain ⟨hb, hl, hu, hp⟩ := h
  induction e with
  | num c => rfl
  | fld i s => rfl
  | cst s c => rfl
  | add a b iha ihb =>
    simp only [Mentions, not_or] at hm
    simp only [eval, iha hm.1, ihb hm.2]
  | prod p a b iha ihb =>
    simp only [Mentions, not_or] at hm
    simp only [eval, iha hm.1, ihb hm.2, hb]
  | lin o a iha =>
    simp only [Mentions, not_or] at hm
    simp only [eval, iha hm.2]
    rw [hl o _ (by rintro rfl; exact hm.1 rfl)]
  | un f a iha => simp only [eval, hu]; rw [iha hm]
  | pow a p iha => simp only [eval, hp]; rw [iha hm]

theorem replaceCls_spec {G : Nat → Sig} {c : Nat} {g : Expr K → Option (Expr K)} {e e' : Expr K} {Q : Op → Prop}
    (hQ : ∀ o, Q o → o.kind ≠ .passes ∧ o.rule = .same)
    (hw : WF G e ∨ ∃ c, e = .num c) (hf : firstOrderOK c e = true) (hc : ClsOps c Q e)
    (hg : ∀ s a r, Ty G s a → g a = some r → Ty G s r) (h : replaceCls c g e = some e') :
    Ty G e.sig e' ∧ ∀ {X : Type} (S S' : Sem K X) (env : Nat → X → K), AgreeOff c S S' →
      (∀ s o a r, o.cls = c → Q o → Ty G s a → g a = some r → eval S env r = S'.lin o s (eval S env a)) →
      eval S env e' = eval S' env e := by
  induction e generalizing e' with
  | num d =>
    simp only [replaceCls, Option.some.injEq] at h; subst h
    exact ⟨arg_ty (Or.inr ⟨d, rfl⟩), fun S S' env _ _ => rfl⟩
  | fld i s =>
    simp only [replaceCls, Option.some.injEq] at h; subst h
    exact ⟨arg_ty hw, fun S S' env _ _ => rfl⟩
  | cst s d =>
    simp only [replaceCls, Option.some.injEq] at h; subst h
    exact ⟨arg_ty hw, fun S S' env _ _ => rfl⟩
  | add a b iha ihb =>
    have hw : WF G a ∧ WF G b ∧ a.sig = b.sig := by simpa [WF] using hw
    simp only [firstOrderOK, Bool.and_eq_true] at hf
    simp only [replaceCls, Option.bind_eq_bind, Option.bind_eq_some_iff] at h
    obtain ⟨a', ha, b', hb, h⟩ := h
    obtain ⟨ta, va⟩ := iha (Or.inl hw.1) hf.1 hc.1 ha
    obtain ⟨tb, vb⟩ := ihb (Or.inl hw.2.1) hf.2 hc.2 hb
    rw [← hw.2.2] at tb
    obtain ⟨r', e1, t1⟩ := mkAdd_ty ta tb
    have hrr : r' = e' := Option.some.inj (e1.symm.trans h)
    subst hrr
    exact ⟨t1, fun S S' env hA hv => by rw [mkAdd_eval S env h, va S S' env hA hv, vb S S' env hA hv]; rfl⟩
  | prod p a b iha ihb =>
    have hw' : WF G (.prod p a b) := by simpa using hw
    obtain ⟨hwa, hwb, hfit⟩ := wf_prod_args hw'
    simp only [firstOrderOK, Bool.and_eq_true] at hf
    simp only [replaceCls, Option.bind_eq_bind, Option.bind_eq_some_iff] at h
    obtain ⟨a', ha, b', hb, h⟩ := h
    obtain ⟨ta, va⟩ := iha hwa hf.1 hc.1 ha
    obtain ⟨tb, vb⟩ := ihb (Or.inl hwb) hf.2 hc.2 hb
    obtain ⟨r', e1, t1⟩ := newProd_ty ta tb hfit
    have hrr : r' = e' := Option.some.inj (e1.symm.trans h)
    subst hrr
    refine ⟨t1, fun S S' env hA hv => ?_⟩
    rw [newProd_eval S env h, bil_ty S env ta tb, va S S' env hA hv, vb S S' env hA hv]
    simp only [eval, hA.1]
  | lin o a iha =>
    have hw : WF G a ∧ ((o.kind = .keeps ∨ o.kind = .passes) → o.rule = .same) := by simpa [WF] using hw
    simp only [replaceCls] at h
    split at h
    · rename_i hoc
      simp only [firstOrderOK, hoc.2, if_true] at hf
      simp only [Option.bind_eq_bind, Option.bind_eq_some_iff] at h
      obtain ⟨a', ha, h⟩ := h
      obtain ⟨ta, va, ma⟩ := rebuild_spec (Or.inl hw.1) ha
      have hna : ¬ Mentions (.cls c) a := by
        intro m; rw [has_of_mentions (vars := [.cls c]) (by simp) m] at hf; simp at hf
      have hs : (Expr.lin o a).sig = a.sig := by simp [Expr.sig, Op.outSig, (hQ o (hc.1 hoc.2)).2]
      refine ⟨by rw [hs]; exact hg _ _ _ ta h, fun S S' env hA hv => ?_⟩
      rw [hv a.sig o a' e' hoc.2 (hc.1 hoc.2) ta h, va]
      simp only [eval, eval_agree hA env hna]
    · rename_i hoc
      have hoc' : o.cls ≠ c := fun h => hoc ⟨(hQ o (hc.1 h)).1, h⟩
      simp only [firstOrderOK, hoc', if_false] at hf
      simp only [Option.bind_eq_bind, Option.bind_eq_some_iff] at h
      obtain ⟨a', ha, h⟩ := h
      obtain ⟨ta, va⟩ := iha (Or.inl hw.1) hf hc.2 ha
      refine ⟨newLin_ty ta hw.2 h, fun S S' env hA hv => ?_⟩
      rw [newLin_eval S env h, lin_ty S env ta, va S S' env hA hv]
      simp only [eval, hA.2.1 o _ hoc']
  | un f a iha =>
    have hw : WF G a := by simpa [WF] using hw
    simp only [replaceCls, Option.bind_eq_bind, Option.bind_eq_some_iff] at h
    obtain ⟨a', ha, h⟩ := h
    obtain ⟨ta, va⟩ := iha (Or.inl hw) hf hc ha
    obtain ⟨ho, rfl⟩ := newUn_eq h
    obtain ⟨w, s⟩ := ta.operand ho
    exact ⟨Or.inr (Or.inr ⟨w, s⟩), fun S S' env hA hv => by
      simp only [eval, hA.2.2.1]; rw [va S S' env hA hv]⟩
  | pow a p iha =>
    have hw : WF G a := by simpa [WF] using hw
    simp only [replaceCls, Option.bind_eq_bind, Option.bind_eq_some_iff] at h
    obtain ⟨a', ha, h⟩ := h
    obtain ⟨ta, va⟩ := iha (Or.inl hw) hf hc ha
    obtain ⟨ho, rfl⟩ := newPow_eq h
    obtain ⟨w, s⟩ := ta.operand ho
    exact ⟨Or.inr (Or.inr ⟨w, s⟩), fun S S' env hA hv => by
      simp only [eval, hA.2.2.2]; rw [va S S' env hA hv]⟩

/-! ### Parts of a split -/

theorem split_mentions {vars : List Var} {e p n : Expr K} (h : split vars e = some (p, n)) {v : Var}
    (hm : Mentions v p ∨ Mentions v n) : Mentions v e := by
  induction e generalizing p n with
  | num c => simp only [split, Option.some.injEq, Prod.mk.injEq] at h; obtain ⟨rfl, rfl⟩ := h; simp [Mentions] at hm
  | fld i s =>
    simp only [split] at h
    split at h <;> simp only [Option.some.injEq, Prod.mk.injEq] at h <;> obtain ⟨rfl, rfl⟩ := h <;>
      simpa [Mentions] using hm
  | cst s c => simp only [split, Option.some.injEq, Prod.mk.injEq] at h; obtain ⟨rfl, rfl⟩ := h; simp [Mentions] at hm
  | add a b iha ihb =>
    simp only [split, pySum_two, Option.bind_eq_bind, Option.bind_eq_some_iff] at h
    obtain ⟨⟨pa, na⟩, ha, ⟨pb, nb⟩, hb, p', hp, n', hn, h⟩ := h
    simp only [Option.some.injEq, Prod.mk.injEq] at h
    obtain ⟨rfl, rfl⟩ := h
    rcases hm with hm | hm
    · rcases mkAdd_mentions hp hm with m | m
      · exact Or.inl (iha ha (Or.inl m))
      · exact Or.inr (ihb hb (Or.inl m))
    · rcases mkAdd_mentions hn hm with m | m
      · exact Or.inl (iha ha (Or.inr m))
      · exact Or.inr (ihb hb (Or.inr m))
  | prod q a b iha ihb =>
    have : ∃ pa na pb nb, split vars a = some (pa, na) ∧ split vars b = some (pb, nb) := by
      simp only [split, Option.bind_eq_bind, Option.bind_eq_some_iff] at h
      obtain ⟨⟨pa, na⟩, ha, ⟨pb, nb⟩, hb, _⟩ := h
      exact ⟨pa, na, pb, nb, ha, hb⟩
    obtain ⟨pa, na, pb, nb, ha, hb⟩ := this
    obtain ⟨t1, t2, t3, t12, h1, h2, h3, h4, h5, h6⟩ := split_prod ha hb h
    have pt : ∀ {x y r : Expr K}, prodTerm q x y = some r → Mentions v r → Mentions v x ∨ Mentions v y := by
      intro x y r h m
      unfold prodTerm at h
      split at h
      · exact newProd_mentions h m
      · obtain rfl := Option.some.inj h; exact m.elim
    rcases hm with hm | hm
    · rcases mkAdd_mentions h6 hm with m | m
      · rcases mkAdd_mentions h5 m with m | m
        · rcases pt h1 m with m | m
          · exact Or.inl (iha ha (Or.inl m))
          · exact Or.inr (ihb hb (Or.inl m))
        · rcases pt h2 m with m | m
          · exact Or.inl (iha ha (Or.inl m))
          · exact Or.inr (ihb hb (Or.inr m))
      · rcases pt h3 m with m | m
        · exact Or.inl (iha ha (Or.inr m))
        · exact Or.inr (ihb hb (Or.inl m))
    · rcases pt h4 hm with m | m
      · exact Or.inl (iha ha (Or.inr m))
      · exact Or.inr (ihb hb (Or.inr m))
  | lin o a iha =>
    simp only [split] at h
    split at h
    · simp only [Option.some.injEq, Prod.mk.injEq] at h; obtain ⟨rfl, rfl⟩ := h
      simpa [Mentions] using hm
    · simp only [Option.bind_eq_bind, Option.bind_eq_some_iff] at h
      obtain ⟨⟨pa, na⟩, ha, p', hp, n', hn, h⟩ := h
      simp only [Option.some.injEq, Prod.mk.injEq] at h
      obtain ⟨rfl, rfl⟩ := h
      rcases hm with hm | hm
      · rcases newLin_mentions hp hm with m | m
        · exact Or.inl m
        · exact Or.inr (iha ha (Or.inl m))
      · rcases newLin_mentions hn hm with m | m
        · exact Or.inl m
        · exact Or.inr (iha ha (Or.inr m))
  | un f a iha =>
    simp only [split] at h
    split at h <;> simp only [Option.some.injEq, Prod.mk.injEq] at h <;> obtain ⟨rfl, rfl⟩ := h <;>
      simpa [Mentions] using hm
  | pow a k iha =>
    simp only [split] at h
    split at h <;> simp only [Option.some.injEq, Prod.mk.injEq] at h <;> obtain ⟨rfl, rfl⟩ := h <;>
      simpa [Mentions] using hm

/-- Expressions made of terms with exactly one time derivative, applied to an expression linear in the
variables, and multiplied only by factors free of variables and time derivatives. -/
inductive DtLin (V : List Nat) : Expr K → Prop
  | dt (a) : ¬ Mentions (.cls 0) a → linearOK (V.map Var.fld) false a = true → DtLin V (.lin dtOp a)
  | add (a b) : DtLin V a → DtLin V b → DtLin V (.add a b)
  | prodL (q a b) : DtLin V a → ¬ Mentions (.cls 0) b → (∀ i ∈ V, ¬ Mentions (.fld i) b) → DtLin V (.prod q a b)
  | prodR (q a b) : DtLin V b → ¬ Mentions (.cls 0) a → (∀ i ∈ V, ¬ Mentions (.fld i) a) → DtLin V (.prod q a b)
  | lin (o a) : o.cls ≠ 0 → DtLin V a → DtLin V (.lin o a)

theorem DtLin.operand {V : List Nat} {e : Expr K} (h : DtLin V e) : e.isOperand = true := by
  cases h <;> rfl

theorem DtLin.mkAdd' {V : List Nat} {a b r : Expr K} (ha : a = .num 0 ∨ DtLin V a) (hb : b = .num 0 ∨ DtLin V b)
    (h : mkAdd a b = some r) : r = .num 0 ∨ DtLin V r := by
  rcases ha with rfl | ha
  · rw [mkAdd_zero_left] at h; obtain rfl := Option.some.inj h; exact hb
  rcases hb with rfl | hb
  · rw [mkAdd_zero_right] at h; obtain rfl := Option.some.inj h; exact Or.inr ha
  rw [mkAdd_operands ha.operand hb.operand h]
  exact Or.inr (.add _ _ ha hb)

theorem DtLin.prodTerm' {V : List Nat} {q : PKind} {a b r : Expr K}
    (hab : (DtLin V a ∧ ¬ Mentions (.cls 0) b ∧ (∀ i ∈ V, ¬ Mentions (.fld i) b)) ∨
      (DtLin V b ∧ ¬ Mentions (.cls 0) a ∧ (∀ i ∈ V, ¬ Mentions (.fld i) a)))
    (h : prodTerm q a b = some r) : r = .num 0 ∨ DtLin V r := by
  have ab : DtLin V (.prod q a b) := by
    rcases hab with ⟨h1, h2, h3⟩ | ⟨h1, h2, h3⟩
    · exact .prodL _ _ _ h1 h2 h3
    · exact .prodR _ _ _ h1 h2 h3
  have ba : DtLin V (.prod .mul b a) := by
    rcases hab with ⟨h1, h2, h3⟩ | ⟨h1, h2, h3⟩
    · exact .prodR _ _ _ h1 h2 h3
    · exact .prodL _ _ _ h1 h2 h3
  have ab' : DtLin V (.prod .mul a b) := by
    rcases hab with ⟨h1, h2, h3⟩ | ⟨h1, h2, h3⟩
    · exact .prodL _ _ _ h1 h2 h3
    · exact .prodR _ _ _ h1 h2 h3
  unfold prodTerm at h
  split at h
  · unfold newProd at h
    split at h
    · rcases mkMul_cases a b with ⟨rfl, e⟩ | ⟨rfl, e⟩ | ⟨_, e⟩ | ⟨_, _, _, e⟩ | ⟨_, _, _, e⟩ | ⟨c, d, rfl, rfl, e⟩ <;>
        rw [e] at h <;> obtain rfl := Option.some.inj h
      · rcases hab with ⟨h1, _⟩ | ⟨h1, _⟩
        · exact absurd h1.operand (by simp)
        · exact Or.inr h1
      · rcases hab with ⟨h1, _⟩ | ⟨h1, _⟩
        · exact Or.inr h1
        · exact absurd h1.operand (by simp)
      · exact Or.inl rfl
      · exact Or.inr ab'
      · exact Or.inr ba
      · rcases hab with ⟨h1, _⟩ | ⟨h1, _⟩ <;> exact absurd h1.operand (by simp)
    · split at h
      · exact Or.inl (Option.some.inj h).symm
      · split at h
        · obtain rfl := Option.some.inj h; exact Or.inr ab
        · simp at h
  · exact Or.inl (Option.some.inj h).symm

theorem split_dtLin {V : List Nat} {e p n : Expr K} (hl : linearOK (V.map Var.fld) false e = true)
    (hf : firstOrderOK 0 e = true) (hd : DtOps e) (hc : CoeffFree V e) (h : split [.cls 0] e = some (p, n)) :
    p = .num 0 ∨ DtLin V p := by
  induction e generalizing p n with
  | num c => simp [linearOK] at hl
  | fld i s =>
    simp [split] at h; exact Or.inl h.1.symm
  | cst s c => simp [split] at h; exact Or.inl h.1.symm
  | add a b iha ihb =>
    simp only [linearOK, Bool.and_eq_true] at hl
    simp only [firstOrderOK, Bool.and_eq_true] at hf
    simp only [split, pySum_two, Option.bind_eq_bind, Option.bind_eq_some_iff] at h
    obtain ⟨⟨pa, na⟩, ha, ⟨pb, nb⟩, hb, p', hp, n', hn, h⟩ := h
    simp only [Option.some.injEq, Prod.mk.injEq] at h
    obtain ⟨rfl, rfl⟩ := h
    exact DtLin.mkAdd' (iha hl.1 hf.1 hd.1 hc.1 ha) (ihb hl.2 hf.2 hd.2 hc.2 hb) hp
  | prod q a b iha ihb =>
    have : ∃ pa na pb nb, split [.cls 0] a = some (pa, na) ∧ split [.cls 0] b = some (pb, nb) := by
      simp only [split, Option.bind_eq_bind, Option.bind_eq_some_iff] at h
      obtain ⟨⟨pa, na⟩, ha, ⟨pb, nb⟩, hb, _⟩ := h
      exact ⟨pa, na, pb, nb, ha, hb⟩
    obtain ⟨pa, na, pb, nb, ha, hb⟩ := this
    obtain ⟨t1, t2, t3, t12, h1, h2, h3, h4, h5, h6⟩ := split_prod ha hb h
    simp only [firstOrderOK, Bool.and_eq_true] at hf
    simp only [linearOK] at hl
    split at hl
    · simp at hl
    rename_i hboth
    split at hl
    · rename_i hha
      have hhb : has (V.map Var.fld) b = false := by simpa [hha] using hboth
      have vb := not_mentions_of_not_has hhb
      have db := hc.2.2.2 vb
      have pb0 := split_not_has (not_has_of_not_mentions db) hb
      subst pb0
      obtain rfl := prodTerm_zero_right h1
      obtain rfl := prodTerm_zero_right h3
      rw [mkAdd_zero_left] at h5; obtain rfl := Option.some.inj h5
      rw [mkAdd_zero_right] at h6; obtain rfl := Option.some.inj h6
      rcases iha hl hf.1 hd.1 hc.1 ha with rfl | hpa
      · exact Or.inl (prodTerm_zero_left h2)
      · exact DtLin.prodTerm' (Or.inl ⟨hpa, fun m => db (split_mentions hb (Or.inr m)),
          fun i hi m => vb i hi (split_mentions hb (Or.inr m))⟩) h2
    · rename_i hha
      have hha : has (V.map Var.fld) a = false := by simpa using hha
      split at hl
      · have va := not_mentions_of_not_has hha
        have da := hc.2.2.1 va
        have pa0 := split_not_has (not_has_of_not_mentions da) ha
        subst pa0
        obtain rfl := prodTerm_zero_left h1
        obtain rfl := prodTerm_zero_left h2
        rw [mkAdd_zero_left] at h5; obtain rfl := Option.some.inj h5
        rw [mkAdd_zero_left] at h6; obtain rfl := Option.some.inj h6
        rcases ihb hl hf.2 hd.2 hc.2.1 hb with rfl | hpb
        · exact Or.inl (prodTerm_zero_right h3)
        · exact DtLin.prodTerm' (Or.inr ⟨hpb, fun m => da (split_mentions ha (Or.inr m)),
            fun i hi m => va i hi (split_mentions ha (Or.inr m))⟩) h3
      · simp at hl
  | lin o a iha =>
    simp only [linearOK] at hl
    by_cases ho : o.cls = 0
    · have ho' := hd.1 ho
      simp only [firstOrderOK, ho, if_true] at hf
      simp only [split, ho] at h
      simp at h
      rw [← h.1]
      right
      rw [ho']
      refine .dt a ?_ hl
      intro m; rw [has_of_mentions (vars := [.cls 0]) (by simp) m] at hf; simp at hf
    · simp only [firstOrderOK, ho, if_false] at hf
      have hc' : ([Var.cls 0].contains (Var.cls o.cls)) = false := by
        simp only [List.contains_eq_mem, List.mem_singleton, Var.cls.injEq, decide_eq_false_iff_not]
        exact ho
      simp only [split, hc'] at h
      simp only [Bool.false_eq_true, if_false, Option.bind_eq_bind, Option.bind_eq_some_iff] at h
      obtain ⟨⟨pa, na⟩, ha, p', hp, n', hn, h⟩ := h
      simp only [Option.some.injEq, Prod.mk.injEq] at h
      obtain ⟨rfl, rfl⟩ := h
      rcases iha hl hf hd.2 hc ha with rfl | hpa
      · exact Or.inl (newLin_zero hp)
      · rcases newLin_cases hp with ⟨_, rfl⟩ | ⟨_, rfl⟩ | ⟨ho, _⟩
        · exact Or.inr hpa
        · exact Or.inr (.lin _ _ ho hpa)
        · rw [hpa.operand] at ho; simp at ho
  | un f a iha =>
    simp only [linearOK] at hl
    split at hl <;> simp at hl
  | pow a k iha =>
    simp only [linearOK] at hl
    split at hl <;> simp at hl

/-! ### Values -/

omit [DecidableEq K] in
theorem agree_withDt (S : Sem K X) (T : (X → K) →ₗ[K] (X → K)) : AgreeOff 0 S (S.withDt T) := by
  refine ⟨rfl, ?_, rfl, rfl⟩
  intro o s h
  have : o ≠ dtOp := by rintro rfl; exact h rfl
  simp [Sem.withDt, this]

theorem DtLin.eval_zero {V : List Nat} {e : Expr K} (h : DtLin V e) (S : Sem K X) (env : Nat → X → K) :
    eval (S.withDt 0) env e = 0 := by
  induction h with
  | dt a => simp [eval, Sem.withDt]
  | add a b _ _ iha ihb => simp [eval, iha, ihb]
  | prodL q a b _ _ _ iha => simp [eval, iha]
  | prodR q a b _ _ _ ihb => simp [eval, ihb]
  | lin o a ho _ iha => simp [eval, iha]

/-- Expressions free of variables and time derivatives are stationary. -/
theorem stationary_of_free {G : Nat → Sig} {V : List Nat} {S : Sem K X} {env : Nat → X → K}
    (hT : TimeLike S G V env) {e : Expr K} (hw : WF G e ∨ ∃ c, e = .num c) (hd : DtOps e)
    (hm : ¬ Mentions (.cls 0) e) (hv : ∀ i ∈ V, ¬ Mentions (.fld i) e) :
    S.lin dtOp e.sig (eval S env e) = 0 := by
  induction e with
  | num c => exact hT.const _ _
  | fld i s =>
    have hw : s = G i := by simpa [WF] using hw
    simp only [Expr.sig, eval, hw]
    apply hT.stationary
    intro hi; exact hv i hi rfl
  | cst s c => exact hT.const _ _
  | add a b iha ihb =>
    have hw : WF G a ∧ WF G b ∧ a.sig = b.sig := by simpa [WF] using hw
    simp only [Mentions, not_or] at hm hv
    have h1 := iha (Or.inl hw.1) hd.1 hm.1 (fun i hi => (hv i hi).1)
    have h2 := ihb (Or.inl hw.2.1) hd.2 hm.2 (fun i hi => (hv i hi).2)
    rw [← hw.2.2] at h2
    simp only [Expr.sig, eval, map_add, h1, h2, add_zero]
  | prod p a b iha ihb =>
    have hw' : WF G (.prod p a b) := by simpa using hw
    obtain ⟨hwa, hwb, hf⟩ := wf_prod_args hw'
    simp only [Mentions, not_or] at hm hv
    have h1 := iha hwa hd.1 hm.1 (fun i hi => (hv i hi).1)
    have h2 := ihb (Or.inl hwb) hd.2 hm.2 (fun i hi => (hv i hi).2)
    simp only [Expr.sig, eval]
    rw [hT.prod_left _ _ _ _ _ h1, h2, map_zero]
  | lin o a iha =>
    have hw : WF G a ∧ ((o.kind = .keeps ∨ o.kind = .passes) → o.rule = .same) := by simpa [WF] using hw
    simp only [Mentions, not_or] at hm hv
    have h1 := iha (Or.inl hw.1) hd.2 hm.2 (fun i hi => (hv i hi).2)
    simp only [Expr.sig, eval]
    rw [hT.commutes _ _ _ (by rintro rfl; exact hm.1 rfl), h1, map_zero]
  | un f a iha =>
    have hw : WF G a := by simpa [WF] using hw
    exact hT.fn _ _ _ (iha (Or.inl hw) hd hm hv)
  | pow a k iha =>
    have hw : WF G a := by simpa [WF] using hw
    exact hT.pow _ _ _ (iha (Or.inl hw) hd hm hv)

omit [DecidableEq K] in
theorem eval_rates_free {G : Nat → Sig} {V : List Nat} (S S' : Sem K X) (env : Nat → X → K)
    {e : Expr K} (hv : ∀ i ∈ V, ¬ Mentions (.fld i) e) : eval S (rates S' G V env) e = eval S env e := by
  apply eval_congr
  intro i m
  have : i ∉ V := fun hi => hv i hi m
  simp [rates, withVars, this]

/-- The time derivative passes to the variables of a linear expression. -/
theorem dt_linear {G : Nat → Sig} {V : List Nat} {S : Sem K X} {env : Nat → X → K}
    (hT : TimeLike S G V env) {e : Expr K} (hw : WF G e) (hd : DtOps e)
    (hm : ¬ Mentions (.cls 0) e) (hl : linearOK (V.map Var.fld) false e = true) :
    S.lin dtOp e.sig (eval S env e) = eval S (rates S G V env) e := by
  induction e with
  | num c => exact hw.elim
  | fld i s =>
    have hw : s = G i := by simpa [WF] using hw
    simp [linearOK] at hl
    simp [Expr.sig, eval, hw, rates, withVars, hl]
  | cst s c => simp [linearOK] at hl
  | add a b iha ihb =>
    have hw : WF G a ∧ WF G b ∧ a.sig = b.sig := by simpa [WF] using hw
    simp only [linearOK, Bool.and_eq_true] at hl
    simp only [Mentions, not_or] at hm
    have h1 := iha hw.1 hd.1 hm.1 hl.1
    have h2 := ihb hw.2.1 hd.2 hm.2 hl.2
    rw [← hw.2.2] at h2
    simp only [Expr.sig, eval, map_add, h1, h2]
  | prod p a b iha ihb =>
    obtain ⟨hwa, hwb, hf⟩ := wf_prod_args hw
    simp only [Mentions, not_or] at hm
    simp only [linearOK] at hl
    split at hl
    · simp at hl
    rename_i hboth
    split at hl
    · rename_i hha
      have hhb : has (V.map Var.fld) b = false := by simpa [hha] using hboth
      have vb := not_mentions_of_not_has hhb
      have wa : WF G a := by
        rcases hwa with w | ⟨c, rfl⟩
        · exact w
        · simp [has] at hha
      have h1 := iha wa hd.1 hm.1 hl
      have h2 := stationary_of_free hT (Or.inl hwb) hd.2 hm.2 vb
      simp only [Expr.sig, eval]
      rw [hT.prod_right _ _ _ _ _ h2, h1, eval_rates_free S S env vb]
    · rename_i hha
      have hha : has (V.map Var.fld) a = false := by simpa using hha
      split at hl
      · have va := not_mentions_of_not_has hha
        have h1 := stationary_of_free hT hwa hd.1 hm.1 va
        have h2 := ihb hwb hd.2 hm.2 hl
        simp only [Expr.sig, eval]
        rw [hT.prod_left _ _ _ _ _ h1, h2, eval_rates_free S S env va]
      · simp at hl
  | lin o a iha =>
    have hw : WF G a ∧ ((o.kind = .keeps ∨ o.kind = .passes) → o.rule = .same) := hw
    simp only [Mentions, not_or] at hm
    simp only [linearOK] at hl
    simp only [Expr.sig, eval]
    rw [hT.commutes _ _ _ (by rintro rfl; exact hm.1 rfl), iha hw.1 hd.2 hm.2 hl]
  | un f a iha => simp only [linearOK] at hl; split at hl <;> simp at hl
  | pow a k iha => simp only [linearOK] at hl; split at hl <;> simp at hl

theorem dtOps_of_split {vars : List Var} {e p n : Expr K} (h : split vars e = some (p, n)) (hd : DtOps e) :
    DtOps p ∧ DtOps n := by
  have pn : ∀ c : K, DtOps (.num c) := fun _ => trivial
  have pc : ∀ s (c : K), DtOps (.cst s c) := fun _ _ => trivial
  have pa' : ∀ a b : Expr K, DtOps a → DtOps b → DtOps (.add a b) := fun _ _ a b => ⟨a, b⟩
  have pp : ∀ q (a b : Expr K), DtOps a → DtOps b → DtOps (.prod q a b) := fun _ _ _ a b => ⟨a, b⟩
  have hadd : ∀ {a b r : Expr K}, DtOps a → DtOps b → mkAdd a b = some r → DtOps r := by
    intro a b r ha hb h
    by_cases ha0 : a = .num 0
    · subst ha0; rw [mkAdd_zero_left] at h; obtain rfl := Option.some.inj h; exact hb
    by_cases hb0 : b = .num 0
    · subst hb0; rw [mkAdd_zero_right] at h; obtain rfl := Option.some.inj h; exact ha
    have cast : ∀ {s : Sig} {a x : Expr K}, DtOps a → castTo s a = some x → DtOps x := by
      intro s a x ha h
      cases hc : a.isOperand with
      | true => rw [castTo_operand h hc]; exact ha
      | false =>
        obtain ⟨c, rfl⟩ := not_operand hc
        rw [castTo_num] at h; obtain rfl := Option.some.inj h; exact pc _ _
    rw [mkAdd_ne ha0 hb0] at h
    split at h
    · cases hu : unifySig [a, b] with
      | none => simp [hu] at h
      | some s =>
        simp only [hu] at h
        cases hca : castTo s a with
        | none => simp [hca] at h
        | some a' =>
          cases hcb : castTo s b with
          | none => simp [hca, hcb] at h
          | some b' =>
            simp only [hca, hcb, Option.some.injEq] at h
            subst h
            exact pa' _ _ (cast ha hca) (cast hb hcb)
    · obtain rfl := Option.some.inj h; exact pn _
  have hmul : ∀ {a b r : Expr K}, DtOps a → DtOps b → mkMul a b = some r → DtOps r := by
    intro a b r ha hb h
    rcases mkMul_cases a b with ⟨rfl, e⟩ | ⟨rfl, e⟩ | ⟨_, e⟩ | ⟨_, _, _, e⟩ | ⟨_, _, _, e⟩ | ⟨c, d, rfl, rfl, e⟩ <;>
      rw [e] at h <;> obtain rfl := Option.some.inj h
    · exact hb
    · exact ha
    · exact pn _
    · exact pp _ _ _ ha hb
    · exact pp _ _ _ hb ha
    · exact pn _
  have hterm : ∀ {q : PKind} {a b r : Expr K}, DtOps a → DtOps b → prodTerm q a b = some r → DtOps r := by
    intro q a b r ha hb h
    unfold prodTerm at h
    split at h
    · unfold newProd at h
      split at h
      · exact hmul ha hb h
      · split at h
        · obtain rfl := Option.some.inj h; exact pn _
        · split at h
          · obtain rfl := Option.some.inj h; exact pp _ _ _ ha hb
          · simp at h
    · obtain rfl := Option.some.inj h; exact pn _
  induction e generalizing p n with
  | num c => simp only [split, Option.some.injEq, Prod.mk.injEq] at h; obtain ⟨rfl, rfl⟩ := h; exact ⟨trivial, trivial⟩
  | fld i s =>
    simp only [split] at h
    split at h <;> simp only [Option.some.injEq, Prod.mk.injEq] at h <;> obtain ⟨rfl, rfl⟩ := h <;>
      exact ⟨trivial, trivial⟩
  | cst s c => simp only [split, Option.some.injEq, Prod.mk.injEq] at h; obtain ⟨rfl, rfl⟩ := h; exact ⟨trivial, trivial⟩
  | add a b iha ihb =>
    simp only [split, pySum_two, Option.bind_eq_bind, Option.bind_eq_some_iff] at h
    obtain ⟨⟨pa, na⟩, ha, ⟨pb, nb⟩, hb, p', hp, n', hn, h⟩ := h
    simp only [Option.some.injEq, Prod.mk.injEq] at h
    obtain ⟨rfl, rfl⟩ := h
    have h1 := iha ha hd.1
    have h2 := ihb hb hd.2
    exact ⟨hadd h1.1 h2.1 hp, hadd h1.2 h2.2 hn⟩
  | prod q a b iha ihb =>
    have : ∃ pa na pb nb, split vars a = some (pa, na) ∧ split vars b = some (pb, nb) := by
      simp only [split, Option.bind_eq_bind, Option.bind_eq_some_iff] at h
      obtain ⟨⟨pa, na⟩, ha, ⟨pb, nb⟩, hb, _⟩ := h
      exact ⟨pa, na, pb, nb, ha, hb⟩
    obtain ⟨pa, na, pb, nb, ha, hb⟩ := this
    obtain ⟨t1, t2, t3, t12, h1, h2, h3, h4, h5, h6⟩ := split_prod ha hb h
    have d1 := iha ha hd.1
    have d2 := ihb hb hd.2
    exact ⟨hadd (hadd (hterm d1.1 d2.1 h1) (hterm d1.1 d2.2 h2) h5) (hterm d1.2 d2.1 h3) h6,
      hterm d1.2 d2.2 h4⟩
  | lin o a iha =>
    simp only [split] at h
    split at h
    · simp only [Option.some.injEq, Prod.mk.injEq] at h; obtain ⟨rfl, rfl⟩ := h
      exact ⟨hd, trivial⟩
    · simp only [Option.bind_eq_bind, Option.bind_eq_some_iff] at h
      obtain ⟨⟨pa, na⟩, ha, p', hp, n', hn, h⟩ := h
      simp only [Option.some.injEq, Prod.mk.injEq] at h
      obtain ⟨rfl, rfl⟩ := h
      have d := iha ha hd.2
      have hlin : ∀ {a r : Expr K}, DtOps a → newLin o a = some r → DtOps r := by
        intro a r ha h
        rcases newLin_cases h with ⟨_, rfl⟩ | ⟨_, rfl⟩ | ⟨_, rfl | rfl⟩
        · exact ha
        · exact ⟨hd.1, ha⟩
        · trivial
        · exact ha
      exact ⟨hlin d.1 hp, hlin d.2 hn⟩
  | un f a iha =>
    simp only [split] at h
    split at h <;> simp only [Option.some.injEq, Prod.mk.injEq] at h <;> obtain ⟨rfl, rfl⟩ := h
    · exact ⟨hd, trivial⟩
    · exact ⟨trivial, hd⟩
  | pow a k iha =>
    simp only [split] at h
    split at h <;> simp only [Option.some.injEq, Prod.mk.injEq] at h <;> obtain ⟨rfl, rfl⟩ := h
    · exact ⟨hd, trivial⟩
    · exact ⟨trivial, hd⟩

/-- Value of the time-derivative part of an equation. -/
theorem DtLin.eval_rates {G : Nat → Sig} {V : List Nat} {S : Sem K X} {env : Nat → X → K}
    (hT : TimeLike S G V env) {e : Expr K} (h : DtLin V e) (hw : WF G e) (hd : DtOps e) :
    eval S env e = eval (S.withDt LinearMap.id) (rates S G V env) e := by
  have A := agree_withDt S LinearMap.id
  induction h with
  | dt a hm hl =>
    have wa : WF G a := hw.1
    simp only [eval]
    rw [dt_linear hT wa hd.2 hm hl, eval_agree A _ hm]
    simp [Sem.withDt]
  | add a b _ _ iha ihb =>
    have hw : WF G a ∧ WF G b ∧ a.sig = b.sig := hw
    simp only [eval]; rw [iha hw.1 hd.1, ihb hw.2.1 hd.2]
  | prodL q a b ha hm hv iha =>
    obtain ⟨hwa, hwb, hf⟩ := wf_prod_args hw
    have wa : WF G a := by
      rcases hwa with w | ⟨c, rfl⟩
      · exact w
      · exact absurd ha.operand (by simp)
    simp only [eval]; rw [iha wa hd.1, eval_agree A _ hm, eval_rates_free S S env hv]; rfl
  | prodR q a b hb hm hv ihb =>
    obtain ⟨hwa, hwb, hf⟩ := wf_prod_args hw
    simp only [eval]; rw [ihb hwb hd.2, eval_agree A _ hm, eval_rates_free S S env hv]; rfl
  | lin o a ho _ iha =>
    have wa : WF G a := hw.1
    simp only [eval]; rw [iha wa hd.2, A.2.1 o _ ho]

theorem firstOrder_of_free {c : Nat} {e : Expr K} (h : ¬ Mentions (.cls c) e) : firstOrderOK c e = true := by
  induction e with
  | num c => rfl
  | fld i s => rfl
  | cst s c => rfl
  | add a b iha ihb => simp only [Mentions, not_or] at h; simp [firstOrderOK, iha h.1, ihb h.2]
  | prod p a b iha ihb => simp only [Mentions, not_or] at h; simp [firstOrderOK, iha h.1, ihb h.2]
  | lin o a iha =>
    simp only [Mentions, not_or] at h
    have : o.cls ≠ c := by rintro rfl; exact h.1 rfl
    simp [firstOrderOK, this, iha h.2]
  | un f a iha => exact iha h
  | pow a k iha => exact iha h

theorem DtLin.firstOrder {V : List Nat} {e : Expr K} (h : DtLin V e) : firstOrderOK 0 e = true := by
  induction h with
  | dt a hm => simp [firstOrderOK, dtOp, not_has_of_not_mentions hm]
  | add a b _ _ iha ihb => simp [firstOrderOK, iha, ihb]
  | prodL q a b _ hm _ iha => simp [firstOrderOK, iha, firstOrder_of_free hm]
  | prodR q a b _ hm _ ihb => simp [firstOrderOK, ihb, firstOrder_of_free hm]
  | lin o a ho _ iha => simp [firstOrderOK, ho, iha]

end Dedalus.Symb
