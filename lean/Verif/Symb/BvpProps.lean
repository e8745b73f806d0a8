import Verif.Symb.BvpLemmas

/-!
# Properties of boundary value problems (C54) and of `build_EVP` (C24)
-/

namespace Dedalus.Symb

/-! ### C54 -/

section C54

variable {K X : Type} [Field K] [DecidableEq K]

/-- C54. For an equation accepted by a linear boundary value problem, the matrix expression has the value
of the left-hand side and is linear in the variables; the forcing has the value of the right-hand side and
does not depend on the variables. -/
theorem lbvp_matrices {G : Nat → Sig} {vars : List Nat} {lhs rhs L F : Expr K}
    (h : lbvpAdd vars lhs rhs = some (L, F)) (hw : WF G lhs) (S : Sem K X) (env : Nat → X → K) :
    eval S env L = eval S env lhs ∧ eval S env F = eval S env rhs ∧
    (∀ (u w : Nat → X → K) (c d : K), eval S (withVars vars env (c • u + d • w)) L =
      c • eval S (withVars vars env u) L + d • eval S (withVars vars env w) L) ∧
    (∀ u : Nat → X → K, eval S (withVars vars env u) F = eval S env F) := by
  unfold lbvpAdd at h
  obtain ⟨expr, _, h⟩ := Option.bind_eq_some_iff.1 h
  split at h
  · simp at h
  obtain ⟨lhs', hl', h⟩ := Option.bind_eq_some_iff.1 h
  obtain ⟨rhs', hr', h⟩ := Option.bind_eq_some_iff.1 h
  split at h
  · simp at h
  rename_i c1
  split at h
  · simp at h
  rename_i c2
  split at h
  · simp at h
  rename_i c3
  have e := castTo_operand hl' (by simpa using c3)
  subst e
  obtain ⟨L', hL, h⟩ := Option.bind_eq_some_iff.1 h
  split at h
  · simp at h
  have hF : ∃ F', (if rhs.truthy then castTo expr.sig rhs else some (.cst expr.sig 0)) = some F' ∧
      some (L', F') = some (L, F) := by
    split at h
    · rename_i hz
      obtain ⟨F', hF, h⟩ := Option.bind_eq_some_iff.1 h
      exact ⟨F', by simp [hz, hF], h⟩
    · rename_i hz
      exact ⟨_, by simp [hz], h⟩
  obtain ⟨F', hF, h⟩ := hF
  simp only [Option.some.injEq, Prod.mk.injEq] at h
  obtain ⟨rfl, rfl⟩ := h
  obtain ⟨_, vL, _⟩ := rebuild_spec (Or.inl hw) hL
  have vF : ∀ env : Nat → X → K, eval S env F' = eval S env rhs := by
    intro env
    split at hF
    · exact castTo_eval S env hF
    · rename_i hz
      have : rhs = .num 0 := truthy_false.1 (by simpa using hz)
      rw [← Option.some.inj hF, this]; rfl
  refine ⟨vL S env, vF env, ?_, ?_⟩
  · intro u w c d
    rw [vL, vL, vL]
    exact linear_core S (affine := false) (by simpa using c1) env u w c d (by simp)
  · intro u
    rw [vF, vF, ← castTo_eval S _ hr', ← castTo_eval S env hr']
    have := eval_indep S (by simpa using c2) env u env
    rwa [show withVars vars env env = env from by funext i; simp [withVars]] at this

/-- A Poisson-like equation `d(u) + f*u = g` is accepted; with `u` on the right it is not. -/
example : (lbvpAdd [0] (.add (.lin diffOp (.fld 0 [])) (.prod .mul (.fld 1 []) (.fld 0 []))) (.fld 2 [] : Expr ℚ)).isSome
    = true ∧ (lbvpAdd [0] (.lin diffOp (.fld 0 [])) (.fld 0 [] : Expr ℚ)).isNone = true := by
  decide +kernel

end C54

section C54'

variable {X : Type}

/-- C54. For an equation accepted by a nonlinear boundary value problem, the residual has the value of the
left-hand side minus the right-hand side, and the linear operator of the Newton iteration applied to the
perturbations has the value of the directional derivative of the residual at the current variables, in the
direction of the perturbations. Locks are layout hints: they act as the identity. Functions are applied to
scalars inside their domains. -/
theorem nlbvp_newton_partial [Fintype X] {G : Nat → Sig} {S : Sem ℝ X} (hS : Analytic S)
    (hlock : ∀ o s, o.cls = 1 → S.lin o s = LinearMap.id) {eps : Nat} (heps : G eps = [])
    {vars : List (Nat × Sig)} {perts : List Nat} {lhs rhs F dF : Expr ℝ}
    (h : nlbvpAdd eps vars perts lhs rhs = some (F, dF))
    -- distinct variables, one perturbation of the same signature for each, `eps` a new field
    (hnd : (vars.map (·.1)).Nodup) (hlen : perts.length = vars.length)
    (hvsig : ∀ v ∈ vars, v.2 = G v.1) (hpsig : ∀ p ∈ vars.zip perts, G p.2 = G p.1.1)
    (hpv : ∀ p ∈ perts, p ∉ vars.map (·.1) ∧ p ≠ eps) (hne : eps ∉ vars.map (·.1))
    (hw : WF G lhs) (hr : Ty G lhs.sig rhs) (hsl : ScalarFns lhs) (hsr : ScalarFns rhs)
    (hel : ¬ Mentions (.fld eps) lhs) (her : ¬ Mentions (.fld eps) rhs)
    (hcl : ClsOps 1 (fun o => o.rule = .same) lhs) (hcr : ClsOps 1 (fun o => o.rule = .same) rhs)
    (env dir : Nat → X → ℝ) (hdir : ∀ p ∈ vars.zip perts, dir p.1.1 = env p.2)
    (hoff : ∀ i, i ∉ vars.map (·.1) → dir i = 0)
    (hdl : InDomain S env lhs) (hdr : InDomain S env rhs) :
    eval S env F = eval S env lhs - eval S env rhs ∧
    HasDerivAt (fun t : ℝ => eval S (env + t • dir) lhs - eval S (env + t • dir) rhs) (eval S env dF) 0 := by
  unfold nlbvpAdd at h
  obtain ⟨F', hF, h⟩ := Option.bind_eq_some_iff.1 h
  split at h
  · simp at h
  rename_i hFo
  obtain ⟨d1, h1, h⟩ := Option.bind_eq_some_iff.1 h
  split at h
  · simp at h
  rename_i hd1
  obtain ⟨d2, h2, h⟩ := Option.bind_eq_some_iff.1 h
  split at h
  · simp at h
  rename_i hd2
  obtain ⟨d3, h3, h⟩ := Option.bind_eq_some_iff.1 h
  split at h
  · simp at h
  rename_i hd3
  simp only [Option.some.injEq, Prod.mk.injEq] at h
  obtain ⟨rfl, rfl⟩ := h
  obtain ⟨tF, vF⟩ := pySub_spec (Ty.of_wf hw) hr hF
  obtain ⟨wF, sF⟩ := tF.operand (by simpa using hFo)
  rw [zip_perts] at h1
  have keys : ((vars.zip perts).map (fun p => (p.1, (Expr.fld p.2 p.1.2 : Expr ℝ)))).map (·.1.1) = vars.map (·.1) := by
    rw [List.map_map]; exact zip_keys vars perts hlen
  have mem : ∀ a ∈ (vars.zip perts).map (fun p => (p.1, (Expr.fld p.2 p.1.2 : Expr ℝ))),
      ∃ p ∈ vars.zip perts, a = (p.1, Expr.fld p.2 p.1.2) := by
    intro a ha
    obtain ⟨p, hp, rfl⟩ := List.mem_map.1 ha
    exact ⟨p, hp, rfl⟩
  have zipv : ∀ p ∈ vars.zip perts, p.1 ∈ vars ∧ p.2 ∈ perts := fun p hp => List.of_mem_zip hp
  have cF : ClsOps 1 (fun o => o.rule = .same) F' := pySub_cls hcl hcr hF
  have cd : ClsOps 1 (fun o => o.rule = .same) d1 := by
    refine frechet_cls ?_ (by simp) cF h1
    intro a ha
    obtain ⟨p, _, rfl⟩ := mem a ha
    exact fld_cls _ _
  obtain ⟨td, der⟩ := frechet_ty (G := G) hS heps (perts := (vars.zip perts).map (fun p => (p.1, .fld p.2 p.1.2))) (bgs := [])
    (by rw [keys]; exact hnd) (by rw [keys]; exact hne)
    (by
      intro a ha
      obtain ⟨p, hp, rfl⟩ := mem a ha
      have := hvsig _ (zipv p hp).1
      have hps := hpsig p hp
      exact ⟨this, by simp only [WF]; rw [hps, this], this, trivial⟩)
    (by
      intro a ha i hi
      obtain ⟨p, hp, rfl⟩ := mem a ha
      simp only [Mentions, Var.fld.injEq] at hi
      subst hi
      rw [keys]
      exact ⟨(hpv _ (zipv p hp).2).2, (hpv _ (zipv p hp).2).1⟩)
    (by simp) (by simp) (by simp) (by simp) wF
    (pySub_mentions hel her hF)
    (pySub_hered (P := ScalarFns) (fun _ _ => trivial) (fun _ _ a b => ⟨a, b⟩) (fun _ => trivial)
      (fun _ _ _ a b => ⟨a, b⟩) hsl hsr hF)
    env
    (by
      intro a ha
      obtain ⟨p, _, rfl⟩ := mem a ha
      trivial)
    (by
      rw [assigned_eq S (f := env) (by simp) (by simp) (fun _ _ => rfl)]
      exact pySub_hered (P := InDomain S env) (fun _ _ => trivial) (fun _ _ a b => ⟨a, b⟩) (fun _ => trivial)
        (fun _ _ _ a b => ⟨a, b⟩) hdl hdr hF) h1
  rw [assigned_eq S (f := env) (by simp) (by simp) (fun _ _ => rfl),
    assigned_eq S (f := dir) (by rw [keys]; exact hnd)
      (by
        intro a ha
        obtain ⟨p, hp, rfl⟩ := mem a ha
        exact hdir p hp)
      (by rw [keys]; exact hoff)] at der
  refine ⟨vF S env, ?_⟩
  obtain ⟨w1, _⟩ := td.operand (by simpa using hd1)
  obtain ⟨t2, v2⟩ := replaceCls_id (Or.inl w1) cd h2
  obtain ⟨_, v3, _⟩ := rebuild_spec (wfOrNum_of_ty t2) h3
  rw [v3, v2 S env hlock]
  simpa only [vF] using der

/-- The equation `u*u = 3`: the residual is `u*u - 3` and its differential `du*u + u*du`. -/
example : nlbvpAdd 9 [(0, [])] [1] (.prod .mul (.fld 0 []) (.fld 0 [])) (.num 3 : Expr ℝ) =
    some (.add (.prod .mul (.fld 0 []) (.fld 0 [])) (.cst [] (-3)),
      .add (.prod .mul (.fld 1 []) (.fld 0 [])) (.prod .mul (.fld 0 []) (.fld 1 []))) := by
  norm_num [nlbvpAdd, pySub, pyNeg, frechet, perturb, replace, symDiff, pyPow, newPow, newProd, mkMul, preMul,
    newUn, Expr.eqNum, Expr.isOperand, pySum, mkAdd, preAdd, unifySig, castTo, Expr.sig, List.filter,
    PKind.outSig, substAll, Expr.truthy, Expr.numVal, replaceCls, rebuild]

end C54'

/-! ### C24 -/

section C24

variable {X : Type}

theorem convertEqn_inv {K : Type} [Field K] [DecidableEq K] [Consts K] {eps eig time : Nat}
    {perts bgs : List ((Nat × Sig) × Expr K)} {pertVars : List Nat} {q : IvpEqn K} {n : EvpEqn K}
    (h : convertEqn eps eig time perts bgs pertVars q = some n) :
    ∃ M0 L0 M2 L2 dF s lhs, split [.cls 0] q.lhs = some (M0, L0) ∧
      ((M0 = .num 0 ∧ M2 = .num 0) ∨ (M0 ≠ .num 0 ∧
        ∃ M1, replaceCls 0 (fun x => mkMul (.fld eig []) x) M0 = some M1 ∧ substAll perts M1 = some M2)) ∧
      ((L0 = .num 0 ∧ L2 = .num 0) ∨ substAll perts L0 = some L2) ∧
      ((q.rhs = .num 0 ∧ dF = .num 0) ∨ (has [.fld time] q.rhs = false ∧ q.rhs.isOperand = true ∧
        frechet eps perts bgs q.rhs = some dF)) ∧
      mkAdd M2 L2 = some s ∧ pySub s dF = some lhs ∧
      evpAdd pertVars eig lhs (.num 0) "True" q.modes = some n := by
  unfold convertEqn at h
  obtain ⟨⟨M0, L0⟩, hs, h⟩ := Option.bind_eq_some_iff.1 h
  obtain ⟨M2, hM, h⟩ := Option.bind_eq_some_iff.1 h
  obtain ⟨L2, hL, h⟩ := Option.bind_eq_some_iff.1 h
  obtain ⟨dF, hF, h⟩ := Option.bind_eq_some_iff.1 h
  obtain ⟨s, hadd, h⟩ := Option.bind_eq_some_iff.1 h
  obtain ⟨lhs, hsub, h⟩ := Option.bind_eq_some_iff.1 h
  obtain ⟨m, hm, h⟩ := Option.bind_eq_some_iff.1 h
  obtain ⟨_, _, _, _, _, _, _, _, _, _, _, _, _, hmm⟩ := evpAdd_inv hm
  have hmn : m = n := by
    have := Option.some.inj h
    rw [← this, ← hmm]
  subst hmn
  refine ⟨M0, L0, M2, L2, dF, s, lhs, hs, ?_, ?_, ?_, hadd, hsub, hm⟩
  · unfold evpM at hM
    split at hM
    · rename_i hz
      exact Or.inr ⟨by rintro rfl; simp [Expr.truthy] at hz, Option.bind_eq_some_iff.1 hM⟩
    · rename_i hz
      have : M0 = .num 0 := truthy_false.1 (by simpa using hz)
      exact Or.inl ⟨this, by rw [← Option.some.inj hM, this]⟩
  · unfold evpL at hL
    split at hL
    · exact Or.inr hL
    · rename_i hz
      have : L0 = .num 0 := truthy_false.1 (by simpa using hz)
      exact Or.inl ⟨this, by rw [← Option.some.inj hL, this]⟩
  · unfold evpF at hF
    split at hF
    · split at hF
      · simp at hF
      rename_i ho
      split at hF
      · simp at hF
      rename_i ht
      exact Or.inr ⟨by simpa using ht, by simpa using ho, hF⟩
    · rename_i hz
      exact Or.inl ⟨truthy_false.1 (by simpa using hz), (Option.some.inj hF).symm⟩

/-- One converted equation. -/
theorem convertEqn_spec [Fintype X] {G : Nat → Sig} {S : Sem ℝ X} (hS : Analytic S) {eps eig time : Nat}
    (heps : G eps = []) (hGe : G eig = [])
    {vars : List (Nat × Sig)} {pertVars : List Nat} {bgs : List (Expr ℝ)} {q : IvpEqn ℝ} {n : EvpEqn ℝ}
    (h : convertEqn eps eig time (vars.zip ((vars.zip pertVars).map (fun p => Expr.fld p.2 p.1.2)))
      (vars.zip bgs) pertVars q = some n)
    (hacc : ∃ q', ivpAdd (vars.map (·.1)) time q.lhs q.rhs q.condition q.modes = some q')
    (hnd : (vars.map (·.1)).Nodup) (hlen : pertVars.length = vars.length) (hlenb : bgs.length = vars.length)
    (hvsig : ∀ v ∈ vars, v.2 = G v.1) (hpsig : ∀ p ∈ vars.zip pertVars, G p.2 = G p.1.1)
    (hpv : ∀ p ∈ pertVars, p ∉ vars.map (·.1) ∧ p ≠ eps ∧ p ≠ eig)
    (hne : eps ∉ vars.map (·.1)) (hni : eig ∉ vars.map (·.1))
    (hbsig : ∀ a ∈ vars.zip bgs, Ty G (G a.1.1) a.2)
    (hlater : (vars.zip bgs).Pairwise (fun a b => ¬ Mentions (.fld b.1.1) a.2))
    (hw : WF G q.lhs) (hr : Ty G q.lhs.sig q.rhs) (hd : DtOps q.lhs) (hc : CoeffFree (vars.map (·.1)) q.lhs)
    (hsr : ScalarFns q.rhs) (her : ¬ Mentions (.fld eps) q.rhs)
    {env dir base : Nat → X → ℝ} {c : ℝ} (hcv : env eig = fun _ => c)
    (hdir : ∀ p ∈ vars.zip pertVars, dir p.1.1 = env p.2) (hoff : ∀ i, i ∉ vars.map (·.1) → dir i = 0)
    (hbase : ∀ a ∈ vars.zip bgs, base a.1.1 = eval S env a.2) (hboff : ∀ i, i ∉ vars.map (·.1) → base i = env i)
    (hdom : InDomain S base q.rhs) :
    n.modes = q.modes ∧ WF G n.lhs ∧ ∃ D, HasDerivAt (fun t : ℝ => eval S (base + t • dir) q.rhs) D 0 ∧
      eval S env n.lhs =
        eval (S.withDt (c • LinearMap.id)) (withVars (vars.map (·.1)) env dir) q.lhs - D ∧
      eval S env n.lhs = c • eval S env n.M + eval S env n.L := by
  obtain ⟨q', hacc⟩ := hacc
  obtain ⟨_, _, _, ho, hl, _, hf, _⟩ := ivpAdd_inv hacc
  obtain ⟨M0, L0, M2, L2, dF, s, lhs, hs, hM, hL, hF, hadd, hsub, hev⟩ := convertEqn_inv h
  rw [zip_perts] at hM hL hF
  have keys : ((vars.zip pertVars).map (fun p => (p.1, (Expr.fld p.2 p.1.2 : Expr ℝ)))).map (·.1.1) = vars.map (·.1) := by
    rw [List.map_map]; exact zip_keys vars pertVars hlen
  have bkeys : (vars.zip bgs).map (·.1.1) = vars.map (·.1) := zip_keys vars bgs hlenb
  have mem : ∀ a ∈ (vars.zip pertVars).map (fun p => (p.1, (Expr.fld p.2 p.1.2 : Expr ℝ))),
      ∃ p ∈ vars.zip pertVars, a = (p.1, Expr.fld p.2 p.1.2) := by
    intro a ha
    obtain ⟨p, hp, rfl⟩ := List.mem_map.1 ha
    exact ⟨p, hp, rfl⟩
  have zipv : ∀ p ∈ vars.zip pertVars, p.1 ∈ vars ∧ p.2 ∈ pertVars := fun p hp => List.of_mem_zip hp
  have psig : ∀ a ∈ (vars.zip pertVars).map (fun p => (p.1, (Expr.fld p.2 p.1.2 : Expr ℝ))),
      a.1.2 = G a.1.1 ∧ WF G a.2 ∧ a.2.sig = G a.1.1 ∧ ScalarFns a.2 := by
    intro a ha
    obtain ⟨p, hp, rfl⟩ := mem a ha
    have := hvsig _ (zipv p hp).1
    have hps := hpsig p hp
    exact ⟨this, by simp only [WF]; rw [hps, this], this, trivial⟩
  have pfree : ∀ a ∈ (vars.zip pertVars).map (fun p => (p.1, (Expr.fld p.2 p.1.2 : Expr ℝ))),
      ∀ i, Mentions (.fld i) a.2 → i ≠ eps ∧ i ∉ vars.map (·.1) := by
    intro a ha i hi
    obtain ⟨p, hp, rfl⟩ := mem a ha
    simp only [Mentions, Var.fld.injEq] at hi
    subst hi
    exact ⟨(hpv _ (zipv p hp).2).2.1, (hpv _ (zipv p hp).2).1⟩
  have plater : ((vars.zip pertVars).map (fun p => (p.1, (Expr.fld p.2 p.1.2 : Expr ℝ)))).Pairwise
      (fun a b => ¬ Mentions (.fld b.1.1) a.2) := by
    rw [List.pairwise_iff_forall_sublist]
    intro a b hab m
    have ha := hab.subset (a := a) (by simp)
    have hb := hab.subset (a := b) (by simp)
    have := (pfree a ha _ m).2
    rw [← keys] at this
    exact this (List.mem_map.2 ⟨b, hb, rfl⟩)
  have pty : ∀ a ∈ (vars.zip pertVars).map (fun p => (p.1, (Expr.fld p.2 p.1.2 : Expr ℝ))), Ty G (G a.1.1) a.2 :=
    fun a ha => Or.inr (Or.inr ⟨(psig a ha).2.1, (psig a ha).2.2.1⟩)
  have pas0 : assigned S ((vars.zip pertVars).map (fun p => (p.1, (Expr.fld p.2 p.1.2 : Expr ℝ)))) env 0 = dir :=
    assigned_eq S (by rw [keys]; exact hnd)
      (by intro a ha; obtain ⟨p, hp, rfl⟩ := mem a ha; exact hdir p hp) (by rw [keys]; exact hoff)
  have pas : assigned S ((vars.zip pertVars).map (fun p => (p.1, (Expr.fld p.2 p.1.2 : Expr ℝ)))) env env =
      withVars (vars.map (·.1)) env dir := by
    apply assigned_eq S (by rw [keys]; exact hnd)
    · intro a ha
      obtain ⟨p, hp, rfl⟩ := mem a ha
      have : p.1.1 ∈ vars.map (·.1) := List.mem_map.2 ⟨_, (zipv p hp).1, rfl⟩
      simp only [withVars, this, if_true]
      exact hdir p hp
    · rw [keys]; intro i hi; simp only [withVars, hi, if_false]
  have bas : assigned S (vars.zip bgs) env env = base :=
    assigned_eq S (by rw [bkeys]; exact hnd) hbase (by rw [bkeys]; exact hboff)
  -- the two parts of the left-hand side
  obtain ⟨tM, tL, hval, hn, _⟩ := split_spec (Or.inl hw) hs
  have dops := dtOps_of_split hs hd
  have hdl := split_dtLin hl hf hd hc hs
  have fL : ¬ Mentions (.cls 0) L0 := hn _ (by simp)
  have hLs : Ty G q.lhs.sig L2 ∧ eval S env L2 = eval S (withVars (vars.map (·.1)) env dir) L0 := by
    rcases hL with ⟨rfl, rfl⟩ | hL
    · exact ⟨Ty.zero, rfl⟩
    · obtain ⟨t, v⟩ := substAll_ty (X := X) (by rw [keys]; exact hnd) pty plater tL hL
      exact ⟨t, by rw [v, pas]⟩
  have hMs : Ty G q.lhs.sig M2 ∧ eval S env M2 =
      eval (S.withDt (c • LinearMap.id)) (withVars (vars.map (·.1)) env dir) M0 := by
    rcases hdl with rfl | hdl
    · rcases hM with ⟨_, rfl⟩ | ⟨h, _⟩
      · exact ⟨Ty.zero, rfl⟩
      · exact absurd rfl h
    · have wM : WF G M0 := (tM.operand hdl.operand).1
      rcases hM with ⟨rfl, _⟩ | ⟨_, M1, hM1, hM2⟩
      · exact wM.elim
      have te : Ty G [] (.fld eig [] : Expr ℝ) := Or.inr (Or.inr ⟨hGe.symm, rfl⟩)
      obtain ⟨t1, v1⟩ := replaceCls_spec (Q := (· = dtOp)) (by rintro o rfl; simp [dtOp]) (Or.inl wM)
        hdl.firstOrder dops.1 (by
          intro s a r ha h
          obtain ⟨r', e1, t1⟩ := mkMul_ty te ha
          have hrr : r' = r := Option.some.inj (e1.symm.trans h)
          subst hrr
          simpa using t1) hM1
      rw [(tM.operand hdl.operand).2] at t1
      obtain ⟨t2, v2⟩ := substAll_ty (X := X) (by rw [keys]; exact hnd) pty plater t1 hM2
      refine ⟨t2, ?_⟩
      rw [v2, pas]
      apply v1 S _ _ (agree_withDt S _)
      intro s o a r _ ho ha h
      rw [mkMul_eval S _ h, bil_ty S _ te ha, S.mul_left]
      have : withVars (vars.map (·.1)) env dir eig = fun _ => c := by simp only [withVars, hni, if_false, hcv]
      funext x
      simp [Sem.withDt, ho, eval, this]
  -- the differential of the right-hand side
  have hFs : Ty G q.lhs.sig dF ∧ HasDerivAt (fun t : ℝ => eval S (base + t • dir) q.rhs) (eval S env dF) 0 := by
    rcases hF with ⟨hz, rfl⟩ | ⟨_, hro, hfr⟩
    · rw [hz]
      exact ⟨Ty.zero, hasDerivAt_const _ _⟩
    · obtain ⟨wr, sr⟩ := hr.operand hro
      obtain ⟨td, der⟩ := frechet_ty (G := G) hS heps (by rw [keys]; exact hnd) (by rw [keys]; exact hne) psig
        (by rw [keys]; exact pfree) (by rw [keys, bkeys]; exact fun _ h => h) (by rw [bkeys]; exact hnd) hbsig hlater
        wr her hsr env
        (by intro a ha; obtain ⟨p, _, rfl⟩ := mem a ha; trivial) (by rw [bas]; exact hdom) hfr
      rw [bas, pas0] at der
      exact ⟨by rw [← sr]; exact td, der⟩
  obtain ⟨s', es, ts⟩ := mkAdd_ty hMs.1 hLs.1
  have hss : s' = s := Option.some.inj (es.symm.trans hadd)
  subst hss
  obtain ⟨tl, vl⟩ := pySub_spec ts hFs.1 hsub
  obtain ⟨_, _, _, hlo, _, _, _, _, _, _, _, e1, _, e2⟩ := evpAdd_inv hev
  have wl := (tl.operand hlo).1
  have heig : eig ∉ pertVars := fun h => (hpv _ h).2.2 rfl
  refine ⟨e2, by rw [e1]; exact wl, _, hFs.2, ?_, ?_⟩
  · rw [e1, vl, mkAdd_eval S env hadd, hMs.2, hLs.2, ← hval, eval_agree (agree_withDt S _) _ fL]
  · rw [e1]
    exact (evp_matrices hev wl hGe heig S env).1 c hcv

theorem forall2_of_mapM {α β : Type} {f : α → Option β} : ∀ {l : List α} {out : List β}, l.mapM f = some out →
    List.Forall₂ (fun a b => a ∈ l ∧ f a = some b) l out
  | [], out, h => by simp at h; subst h; exact .nil
  | a :: l, out, h => by
    simp only [List.mapM_cons, Option.bind_eq_bind, Option.bind_eq_some_iff, Option.pure_def,
      Option.some.injEq] at h
    obtain ⟨x, hx, l', hl, rfl⟩ := h
    refine .cons ⟨List.mem_cons_self, hx⟩ ?_
    exact (forall2_of_mapM hl).imp (fun a b h => ⟨List.mem_cons_of_mem _ h.1, h.2⟩)

/-- C24. With explicit backgrounds, `build_EVP` makes one equation for each accepted equation
`M.dt(X) + L.X = F(X)` of the initial value problem, in order and with its valid modes. When the eigenvalue
field holds the number `c`, the new left-hand side is the old one applied to the perturbations, with time
derivatives read as multiplication by `c`, minus the directional derivative of `F` at the backgrounds in
the direction of the perturbations; and it is `c M + L` for the matrices of the new equation. (`dir` is the
perturbations, as values of the variables; `base` is the backgrounds, as values of the variables.) Missing:
the conditions of the equations, the default backgrounds, backgrounds that mention later variables,
functions of tensors, time derivatives of coefficients. -/
theorem buildEVP_equations_partial [Fintype X] {G : Nat → Sig} {S : Sem ℝ X} (hS : Analytic S) {eps eig time : Nat}
    (heps : G eps = []) (hGe : G eig = [])
    {vars : List (Nat × Sig)} {pertVars : List Nat} {bgs : List (Expr ℝ)} {eqns : List (IvpEqn ℝ)}
    {out : List (EvpEqn ℝ)} (h : buildEVP eps eig time vars eqns (some bgs) pertVars = some out)
    (hacc : ∀ q ∈ eqns, ivpAdd (vars.map (·.1)) time q.lhs q.rhs q.condition q.modes = some q)
    (hnd : (vars.map (·.1)).Nodup) (hlen : pertVars.length = vars.length) (hlenb : bgs.length = vars.length)
    (hvsig : ∀ v ∈ vars, v.2 = G v.1) (hpsig : ∀ p ∈ vars.zip pertVars, G p.2 = G p.1.1)
    (hpv : ∀ p ∈ pertVars, p ∉ vars.map (·.1) ∧ p ≠ eps ∧ p ≠ eig)
    (hne : eps ∉ vars.map (·.1)) (hni : eig ∉ vars.map (·.1))
    (hbsig : ∀ a ∈ vars.zip bgs, WF G a.2 ∧ a.2.sig = G a.1.1)
    (hlater : (vars.zip bgs).Pairwise (fun a b => ¬ Mentions (.fld b.1.1) a.2))
    (hwf : ∀ q ∈ eqns, WF G q.lhs ∧ (q.rhs = .num 0 ∨ WF G q.rhs ∧ q.rhs.sig = q.lhs.sig) ∧ DtOps q.lhs ∧
      CoeffFree (vars.map (·.1)) q.lhs ∧ ScalarFns q.rhs ∧ ¬ Mentions (.fld eps) q.rhs)
    {env dir base : Nat → X → ℝ} {c : ℝ} (hcv : env eig = fun _ => c)
    (hdir : ∀ p ∈ vars.zip pertVars, dir p.1.1 = env p.2) (hoff : ∀ i, i ∉ vars.map (·.1) → dir i = 0)
    (hbase : ∀ a ∈ vars.zip bgs, base a.1.1 = eval S env a.2) (hboff : ∀ i, i ∉ vars.map (·.1) → base i = env i)
    (hdom : ∀ q ∈ eqns, InDomain S base q.rhs) :
    List.Forall₂ (fun q n => n.modes = q.modes ∧
      ∃ D, HasDerivAt (fun t : ℝ => eval S (base + t • dir) q.rhs) D 0 ∧
      eval S env n.lhs =
        eval (S.withDt (c • LinearMap.id)) (withVars (vars.map (·.1)) env dir) q.lhs - D ∧
      eval S env n.lhs = c • eval S env n.M + eval S env n.L) eqns out := by
  unfold buildEVP at h
  obtain ⟨out', ho, h⟩ := Option.bind_eq_some_iff.1 h
  obtain rfl := Option.some.inj h
  refine (forall2_of_mapM ho).imp ?_
  rintro q n ⟨hq, hn⟩
  obtain ⟨hw, hr, hd, hc, hs, he⟩ := hwf q hq
  have hr' : Ty G q.lhs.sig q.rhs := by
    rcases hr with h | ⟨h1, h2⟩
    · exact Or.inl h
    · exact Or.inr (Or.inr ⟨h1, h2⟩)
  obtain ⟨h1, _, h2⟩ := convertEqn_spec hS heps hGe hn ⟨q, hacc q hq⟩ hnd hlen hlenb hvsig hpsig hpv hne hni
    (fun a ha => Or.inr (Or.inr (hbsig a ha))) hlater hw hr' hd hc hs he hcv hdir hoff hbase hboff (hdom q hq)
  exact ⟨h1, h2⟩

/-- The equation `dt(u) + d(u) = u*u`, about the background `f`. Fields: `u = 0`, background `f = 1`,
perturbation `2`, time `3`, eigenvalue `4`, epsilon `5`. -/
def exIvp (K : Type) [Field K] (cond : String) : IvpEqn K where
  lhs := .add (.lin dtOp (.fld 0 [])) (.lin diffOp (.fld 0 []))
  rhs := .prod .mul (.fld 0 []) (.fld 0 [])
  condition := cond
  modes := [true, false]
  M := .fld 0 []
  L := .lin diffOp (.fld 0 [])
  F := .prod .mul (.fld 0 []) (.fld 0 [])

/-- The new equation `lambda*du + d(du) - (du*f + f*du)`. -/
def exEvpOut (K : Type) [Field K] : EvpEqn K where
  lhs := .add (.add (.prod .mul (.fld 4 []) (.fld 2 [])) (.lin diffOp (.fld 2 [])))
    (.prod .mul (.num (-1)) (.add (.prod .mul (.fld 2 []) (.fld 1 [])) (.prod .mul (.fld 1 []) (.fld 2 []))))
  condition := "True"
  modes := [true, false]
  M := .fld 2 []
  L := .add (.lin diffOp (.fld 2 []))
    (.prod .mul (.num (-1)) (.add (.prod .mul (.fld 2 []) (.fld 1 [])) (.prod .mul (.fld 1 []) (.fld 2 []))))

instance : DecidableEq (IvpEqn ℚ) := fun a b =>
  decidable_of_iff (a.lhs = b.lhs ∧ a.rhs = b.rhs ∧ a.condition = b.condition ∧ a.modes = b.modes ∧ a.M = b.M ∧
    a.L = b.L ∧ a.F = b.F) (by cases a; cases b; simp)

instance : DecidableEq (EvpEqn ℚ) := fun a b =>
  decidable_of_iff (a.lhs = b.lhs ∧ a.condition = b.condition ∧ a.modes = b.modes ∧ a.M = b.M ∧ a.L = b.L)
    (by cases a; cases b; simp)

example : ivpAdd [0] 3 (exIvp ℚ "nx != 0").lhs (exIvp ℚ "nx != 0").rhs "nx != 0" [true, false] =
    some (exIvp ℚ "nx != 0") := by decide +kernel

/-- The same over the reals, with the other hypotheses of the theorem. -/
example : buildEVP 5 4 3 [(0, [])] [exIvp ℝ "True"] (some [.fld 1 []]) [2] = some [exEvpOut ℝ] ∧
    WF (fun _ => []) (exIvp ℝ "True").lhs ∧ WF (fun _ => []) (exIvp ℝ "True").rhs ∧ DtOps (exIvp ℝ "True").lhs ∧
    CoeffFree [0] (exIvp ℝ "True").lhs ∧ ScalarFns (exIvp ℝ "True").rhs ∧
    InDomain realSem (fun _ _ => 1) (exIvp ℝ "True").rhs := by
  refine ⟨?_, by simp [exIvp, WF, Expr.sig, diffOp, dtOp, Op.outSig], by simp [exIvp, WF, PKind.fits],
    by simp [exIvp, DtOps, ClsOps, diffOp], by simp [exIvp, CoeffFree], by simp [exIvp, ScalarFns],
    by simp [exIvp, InDomain]⟩
  have h1 : split [.cls 0] (exIvp ℝ "True").lhs = some (.lin dtOp (.fld 0 []), .lin diffOp (.fld 0 [])) := by
    simp [exIvp, split, newLin, pySum, mkAdd, preAdd, Expr.eqNum, Expr.isOperand, List.filter, dtOp, diffOp]
  have h2 : evpM 4 [((0, []), (.fld 2 [] : Expr ℝ))] (.lin dtOp (.fld 0 [])) =
      some (.prod .mul (.fld 4 []) (.fld 2 [])) := by
    simp [evpM, replaceCls, rebuild, substAll, replace, mkMul, preMul, newProd, Expr.eqNum, List.filter, dtOp,
      Expr.isOperand, Expr.truthy]
  have h3 : evpL [((0, []), (.fld 2 [] : Expr ℝ))] (.lin diffOp (.fld 0 [])) = some (.lin diffOp (.fld 2 [])) := by
    simp [evpL, substAll, replace, newLin, Expr.eqNum, diffOp, Expr.isOperand, Expr.truthy]
  have h4 : evpF 5 3 [((0, []), (.fld 2 [] : Expr ℝ))] [((0, []), (.fld 1 [] : Expr ℝ))] (exIvp ℝ "True").rhs =
      some (.add (.prod .mul (.fld 2 []) (.fld 1 [])) (.prod .mul (.fld 1 []) (.fld 2 []))) := by
    norm_num [evpF, exIvp, has, frechet, perturb, replace, symDiff, newProd, mkMul, preMul, Expr.eqNum,
      Expr.isOperand, pySum, mkAdd, preAdd, unifySig, castTo, Expr.sig, List.filter, PKind.outSig, substAll,
      Expr.truthy, Expr.numVal]
  have h5 : mkAdd (.prod .mul (.fld 4 []) (.fld 2 [])) (.lin diffOp (.fld 2 []) : Expr ℝ) =
      some (.add (.prod .mul (.fld 4 []) (.fld 2 [])) (.lin diffOp (.fld 2 []))) := by
    simp [mkAdd, preAdd, Expr.eqNum, Expr.isOperand, unifySig, castTo, Expr.sig, List.filter, PKind.outSig,
      diffOp, Op.outSig]
  have h6 : pySub (.add (.prod .mul (.fld 4 []) (.fld 2 [])) (.lin diffOp (.fld 2 [])))
      (.add (.prod .mul (.fld 2 []) (.fld 1 [])) (.prod .mul (.fld 1 []) (.fld 2 []))) = some (exEvpOut ℝ).lhs := by
    norm_num [exEvpOut, pySub, pyNeg, mkMul, preMul, mkAdd, preAdd, Expr.eqNum, Expr.isOperand, unifySig, castTo,
      Expr.sig, List.filter, PKind.outSig, diffOp, Op.outSig]
  have h7 : evpAdd [2] 4 (exEvpOut ℝ).lhs (.num 0) "True" [true, false] = some (exEvpOut ℝ) := by
    have g1 : pySub (exEvpOut ℝ).lhs (.num 0) = some (exEvpOut ℝ).lhs := by
      norm_num [exEvpOut, pySub, pyNeg, mkMul, preMul, mkAdd, preAdd, Expr.eqNum, List.filter]
    have g2 : castTo (exEvpOut ℝ).lhs.sig (exEvpOut ℝ).lhs = some (exEvpOut ℝ).lhs := by
      simp [castTo, exEvpOut]
    have g3 : linearOK [.fld 2] false (exEvpOut ℝ).lhs = true := by
      simp [exEvpOut, linearOK, has]
    have g4 : linearOK [.fld 4] true (exEvpOut ℝ).lhs = true := by
      simp [exEvpOut, linearOK, has]
    have g5 : split [.fld 4] (exEvpOut ℝ).lhs = some (.prod .mul (.fld 4 []) (.fld 2 []), (exEvpOut ℝ).L) := by
      have hv : ¬ (Var.cls 2 = Var.fld 4) := by simp
      norm_num [hv, exEvpOut, split, prodTerm, newProd, mkMul, preMul, newLin, pySum, mkAdd, preAdd, Expr.eqNum,
        Expr.isOperand, List.filter, unifySig, castTo, Expr.sig, PKind.outSig, Op.outSig, diffOp, Expr.truthy]
    have g6 : replace 4 (.num 1) (.prod .mul (.fld 4 []) (.fld 2 []) : Expr ℝ) = some (.fld 2 []) := by
      simp [replace, newProd, mkMul, preMul, Expr.eqNum, List.filter]
    have g7 : reinit (.fld 2 [] : Expr ℝ) = some (.fld 2 []) := by
      simp [reinit, rebuild, Expr.truthy, Expr.eqNum, Expr.isOperand]
    have g8 : reinit (exEvpOut ℝ).L = some (exEvpOut ℝ).L := by
      norm_num [reinit, exEvpOut, rebuild, newProd, mkMul, preMul, newLin, mkAdd, preAdd, Expr.eqNum,
        Expr.isOperand, List.filter, unifySig, castTo, Expr.sig, PKind.outSig, Op.outSig, diffOp, Expr.truthy]
    have g9 : (exEvpOut ℝ).lhs.isOperand = true := rfl
    have g10 : (Expr.prod .mul (.fld 4 []) (.fld 2 []) : Expr ℝ).truthy = true := by simp [Expr.truthy, Expr.eqNum]
    simp [evpAdd, g1, g2, g3, g4, g5, g6, g7, g8, g9, g10]
    rfl
  have h8 : convertEqn 5 4 3 [((0, []), (.fld 2 [] : Expr ℝ))] [((0, []), (.fld 1 [] : Expr ℝ))] [2]
      (exIvp ℝ "True") = some (exEvpOut ℝ) := by
    unfold convertEqn
    rw [h1, h4]
    simp only [Option.bind_eq_bind, Option.bind_some, h2, h3, h5, h6]
    rw [show (exIvp ℝ "True").modes = [true, false] from rfl, h7]
    rfl
  unfold buildEVP
  simp [h8]

/-- C24, part that fails: the condition of an equation is lost. The equation applies to all modes after the
conversion. -/
theorem buildEVP_condition_refuted : ∃ (_ : Consts ℚ) (q : IvpEqn ℚ) (n : EvpEqn ℚ),
    ivpAdd [0] 3 q.lhs q.rhs q.condition q.modes = some q ∧
    buildEVP 5 4 3 [(0, [])] [q] (some [.fld 1 []]) [2] = some [n] ∧ n.condition ≠ q.condition := by
  refine ⟨⟨0, 0, 0⟩, exIvp ℚ "nx != 0", exEvpOut ℚ, ?_, ?_, ?_⟩
  · decide +kernel
  · decide +kernel
  · decide +kernel

/-- C24, part that fails: with the documented default for the backgrounds, the conversion raises for every
initial value problem. -/
theorem buildEVP_default_refuted {K : Type} [Field K] [DecidableEq K] [Consts K] (eps eig time : Nat)
    (vars : List (Nat × Sig)) (eqns : List (IvpEqn K)) (pertVars : List Nat) :
    buildEVP eps eig time vars eqns none pertVars = none := by
  unfold buildEVP
  cases h : eqns.mapM (convertEqn eps eig time (vars.zip ((vars.zip pertVars).map (fun p => Expr.fld p.2 p.1.2)))
      (vars.zip ((none : Option (List (Expr K))).getD [])) pertVars) with
  | none => simp only [h]; rfl
  | some out => simp only [h]; rfl

end C24

end Dedalus.Symb
