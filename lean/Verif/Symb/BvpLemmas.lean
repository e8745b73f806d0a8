import Verif.Symb.Hered

/-!
# Lemmas for boundary value problems and `build_EVP`
-/

namespace Dedalus.Symb

section
variable {K X : Type} [Field K] [DecidableEq K]

/-- Removing operators that act as the identity keeps the value. -/
theorem replaceCls_id {G : Nat → Sig} {c : Nat} {e e' : Expr K} (hw : WF G e ∨ ∃ c, e = .num c)
    (hc : ClsOps c (fun o => o.rule = .same) e) (h : replaceCls c some e = some e') :
    Ty G e.sig e' ∧ ∀ {X : Type} (S : Sem K X) (env : Nat → X → K), (∀ o s, o.cls = c → S.lin o s = LinearMap.id) →
      eval S env e' = eval S env e := by
  induction e generalizing e' with
  | num d =>
    simp only [replaceCls, Option.some.injEq] at h; subst h
    exact ⟨arg_ty (Or.inr ⟨d, rfl⟩), fun S env _ => rfl⟩
  | fld i s =>
    simp only [replaceCls, Option.some.injEq] at h; subst h
    exact ⟨arg_ty hw, fun S env _ => rfl⟩
  | cst s d =>
    simp only [replaceCls, Option.some.injEq] at h; subst h
    exact ⟨arg_ty hw, fun S env _ => rfl⟩
  | add a b iha ihb =>
    have hw : WF G a ∧ WF G b ∧ a.sig = b.sig := by simpa [WF] using hw
    simp only [replaceCls, Option.bind_eq_bind, Option.bind_eq_some_iff] at h
    obtain ⟨a', ha, b', hb, h⟩ := h
    obtain ⟨ta, va⟩ := iha (Or.inl hw.1) hc.1 ha
    obtain ⟨tb, vb⟩ := ihb (Or.inl hw.2.1) hc.2 hb
    rw [← hw.2.2] at tb
    obtain ⟨r', e1, t1⟩ := mkAdd_ty ta tb
    have hrr : r' = e' := Option.some.inj (e1.symm.trans h)
    subst hrr
    exact ⟨t1, fun S env hv => by rw [mkAdd_eval S env h, va S env hv, vb S env hv]; rfl⟩
  | prod p a b iha ihb =>
    have hw' : WF G (.prod p a b) := by simpa using hw
    obtain ⟨hwa, hwb, hfit⟩ := wf_prod_args hw'
    simp only [replaceCls, Option.bind_eq_bind, Option.bind_eq_some_iff] at h
    obtain ⟨a', ha, b', hb, h⟩ := h
    obtain ⟨ta, va⟩ := iha hwa hc.1 ha
    obtain ⟨tb, vb⟩ := ihb (Or.inl hwb) hc.2 hb
    obtain ⟨r', e1, t1⟩ := newProd_ty ta tb hfit
    have hrr : r' = e' := Option.some.inj (e1.symm.trans h)
    subst hrr
    refine ⟨t1, fun S env hv => ?_⟩
    rw [newProd_eval S env h, bil_ty S env ta tb, va S env hv, vb S env hv]
    simp only [eval]
  | lin o a iha =>
    have hw : WF G a ∧ ((o.kind = .keeps ∨ o.kind = .passes) → o.rule = .same) := by simpa [WF] using hw
    simp only [replaceCls] at h
    split at h
    · rename_i hoc
      simp only [Option.bind_eq_bind, Option.bind_eq_some_iff, Option.some.injEq, exists_eq_right] at h
      obtain ⟨ta, va, _⟩ := rebuild_spec (Or.inl hw.1) h
      have hs : (Expr.lin o a).sig = a.sig := by simp [Expr.sig, Op.outSig, hc.1 hoc.2]
      refine ⟨by rw [hs]; exact ta, fun S env hv => ?_⟩
      rw [va]
      simp only [eval, hv o _ hoc.2, LinearMap.id_apply]
    · simp only [Option.bind_eq_bind, Option.bind_eq_some_iff] at h
      obtain ⟨a', ha, h⟩ := h
      obtain ⟨ta, va⟩ := iha (Or.inl hw.1) hc.2 ha
      refine ⟨newLin_ty ta hw.2 h, fun S env hv => ?_⟩
      rw [newLin_eval S env h, lin_ty S env ta, va S env hv]
      simp only [eval]
  | un f a iha =>
    have hw : WF G a := by simpa [WF] using hw
    simp only [replaceCls, Option.bind_eq_bind, Option.bind_eq_some_iff] at h
    obtain ⟨a', ha, h⟩ := h
    obtain ⟨ta, va⟩ := iha (Or.inl hw) hc ha
    obtain ⟨ho, rfl⟩ := newUn_eq h
    obtain ⟨w, s⟩ := ta.operand ho
    exact ⟨Or.inr (Or.inr ⟨w, s⟩), fun S env hv => by
      simp only [eval]; rw [va S env hv]⟩
  | pow a p iha =>
    have hw : WF G a := by simpa [WF] using hw
    simp only [replaceCls, Option.bind_eq_bind, Option.bind_eq_some_iff] at h
    obtain ⟨a', ha, h⟩ := h
    obtain ⟨ta, va⟩ := iha (Or.inl hw) hc ha
    obtain ⟨ho, rfl⟩ := newPow_eq h
    obtain ⟨w, s⟩ := ta.operand ho
    exact ⟨Or.inr (Or.inr ⟨w, s⟩), fun S env hv => by
      simp only [eval]; rw [va S env hv]⟩

theorem pyNeg_spec {G : Nat → Sig} {s : Sig} {b r : Expr K} (hb : Ty G s b) (h : pyNeg b = some r) :
    Ty G s r ∧ ∀ {X : Type} (S : Sem K X) (env : Nat → X → K), eval S env r = - eval S env b := by
  have tn : Ty G [] (.num (-1 : K)) := Or.inr (Or.inl ⟨_, rfl, rfl⟩)
  obtain ⟨r', e1, t1⟩ := mkMul_ty tn hb
  have hrr : r' = r := Option.some.inj (e1.symm.trans h)
  subst hrr
  refine ⟨by simpa using t1, fun S env => ?_⟩
  rw [mkMul_eval S env h, show (Expr.num (-1) : Expr K).sig = [] from rfl, S.mul_left]
  funext x; simp [eval]

theorem pySub_spec {G : Nat → Sig} {s : Sig} {a b r : Expr K} (ha : Ty G s a) (hb : Ty G s b)
    (h : pySub a b = some r) :
    Ty G s r ∧ ∀ {X : Type} (S : Sem K X) (env : Nat → X → K),
      eval S env r = eval S env a - eval S env b := by
  obtain ⟨n, hn, h⟩ := Option.bind_eq_some_iff.1 h
  obtain ⟨tn, vn⟩ := pyNeg_spec hb hn
  obtain ⟨r', e1, t1⟩ := mkAdd_ty ha tn
  have hrr : r' = r := Option.some.inj (e1.symm.trans h)
  subst hrr
  refine ⟨t1, fun S env => ?_⟩
  rw [mkAdd_eval S env h, vn, sub_eq_add_neg]

theorem pySub_hered {P : Expr K → Prop} (pc : ∀ s c, P (.cst s c))
    (pa : ∀ a b, P a → P b → P (.add a b)) (pn : ∀ c, P (.num c))
    (pp : ∀ q a b, P a → P b → P (.prod q a b)) {a b r : Expr K} (ha : P a) (hb : P b)
    (h : pySub a b = some r) : P r := by
  obtain ⟨n, hn, h⟩ := Option.bind_eq_some_iff.1 h
  exact mkAdd_hered pc pa pn ha (mkMul_hered pn pp (pn _) hb hn) h

theorem pySub_mentions {v : Var} {a b r : Expr K} (ha : ¬ Mentions v a) (hb : ¬ Mentions v b)
    (h : pySub a b = some r) : ¬ Mentions v r :=
  pySub_hered (P := fun e => ¬ Mentions v e) (fun _ _ => by simp [Mentions])
    (fun _ _ a b => by simp [Mentions, a, b]) (fun _ => by simp [Mentions])
    (fun _ _ _ a b => by simp [Mentions, a, b]) ha hb h

end

section
variable {X : Type}

theorem assigned_eq (S : Sem ℝ X) {l : List ((Nat × Sig) × Expr ℝ)} {env old f : Nat → X → ℝ}
    (hnd : (l.map (·.1.1)).Nodup) (h1 : ∀ a ∈ l, f a.1.1 = eval S env a.2)
    (h2 : ∀ i, i ∉ l.map (·.1.1) → f i = old i) : assigned S l env old = f := by
  funext i
  by_cases hi : i ∈ l.map (·.1.1)
  · clear h2
    induction l with
    | nil => simp at hi
    | cons p l ih =>
      obtain ⟨⟨x, s⟩, r⟩ := p
      simp only [List.map_cons, List.nodup_cons] at hnd
      by_cases hx : i = x
      · subst hx
        rw [assigned_cons_self]
        exact (h1 _ List.mem_cons_self).symm
      · rw [assigned_cons_ne S hx]
        apply ih hnd.2 (fun a ha => h1 a (List.mem_cons_of_mem _ ha))
        simpa [hx] using hi
  · rw [assigned_not_mem S hi, h2 i hi]

theorem substAll_ty {G : Nat → Sig} {l : List ((Nat × Sig) × Expr ℝ)}
    (hnd : (l.map (·.1.1)).Nodup) (hsig : ∀ a ∈ l, Ty G (G a.1.1) a.2)
    (hlater : l.Pairwise (fun a b => ¬ Mentions (.fld b.1.1) a.2))
    {s : Sig} {e d : Expr ℝ} (hw : Ty G s e) (h : substAll l e = some d) :
    Ty G s d ∧ ∀ (S : Sem ℝ X) (env : Nat → X → ℝ), eval S env d = eval S (assigned S l env env) e := by
  cases ho : e.isOperand with
  | true =>
    obtain ⟨w, rfl⟩ := hw.operand ho
    exact substAll_spec hnd hsig hlater w h
  | false =>
    obtain ⟨c, rfl⟩ := not_operand ho
    cases l with
    | nil =>
      simp only [substAll, Option.some.injEq] at h; subst h
      exact ⟨hw, fun S env => rfl⟩
    | cons p l =>
      obtain ⟨⟨x, t⟩, r⟩ := p
      simp [substAll, Expr.isOperand] at h

/-- The list of pairs (variable, perturbation field). -/
theorem zip_perts (vars : List (Nat × Sig)) (ps : List Nat) :
    vars.zip ((vars.zip ps).map (fun p => (Expr.fld p.2 p.1.2 : Expr ℝ))) =
      (vars.zip ps).map (fun p => (p.1, Expr.fld p.2 p.1.2)) := by
  induction vars generalizing ps with
  | nil => rfl
  | cons v vars ih => cases ps with
    | nil => simp
    | cons p ps => simp [ih]

theorem zip_keys {α : Type} (vars : List (Nat × Sig)) (l : List α) (h : l.length = vars.length) :
    (vars.zip l).map (fun a => a.1.1) = vars.map (·.1) := by
  rw [show (fun a : (Nat × Sig) × α => a.1.1) = (fun v : Nat × Sig => v.1) ∘ Prod.fst from rfl,
    ← List.map_map, List.map_fst_zip (by omega)]

end

end Dedalus.Symb
