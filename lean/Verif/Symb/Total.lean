import Verif.Symb.Split

/-! When splitting succeeds. -/

namespace Dedalus.Symb

variable {K : Type} [Field K] [DecidableEq K]

/-- Every linear operator of the tree is of a class that can be rebuilt on the number zero, unless it is
one of the operators to split by (and then its operand is not visited). -/
def Splittable (vars : List Var) : Expr K → Prop
  | .add a b => Splittable vars a ∧ Splittable vars b
  | .prod _ a b => Splittable vars a ∧ Splittable vars b
  | .lin o a => Var.cls o.cls ∈ vars ∨
      (o.kind ≠ .rejects ∧ o.kind ≠ .noNewOperand ∧ Splittable vars a)
  | _ => True

/-- Parts of a split operand: the number zero or operands. -/
def Part (G : Nat → Sig) (s : Sig) (e : Expr K) : Prop := e = .num 0 ∨ (WF G e ∧ e.sig = s)

theorem Part.ty {G : Nat → Sig} {s : Sig} {e : Expr K} (h : Part G s e) : Ty G s e := by
  rcases h with h | h
  · exact Or.inl h
  · exact Or.inr (Or.inr h)

theorem mkAdd_part {G : Nat → Sig} {s : Sig} {a b : Expr K} (ha : Part G s a) (hb : Part G s b) :
    ∃ r, mkAdd a b = some r ∧ Part G s r := by
  obtain ⟨r, h, t⟩ := mkAdd_ty ha.ty hb.ty
  refine ⟨r, h, ?_⟩
  rcases ha with rfl | ha
  · rw [mkAdd_zero_left] at h; obtain rfl := Option.some.inj h; exact hb
  rcases hb with rfl | hb
  · rw [mkAdd_zero_right] at h; obtain rfl := Option.some.inj h; exact Or.inr ha
  have := mkAdd_operands (wf_operand ha.1) (wf_operand hb.1) h
  subst this
  rcases t with t | ⟨_, t, _⟩ | t
  · simp at t
  · simp at t
  · exact Or.inr t

theorem prodTerm_part {G : Nat → Sig} {s t : Sig} {q : PKind} {a b : Expr K}
    (ha : Part G s a ∨ ∃ c, a = .num c ∧ s = []) (hb : Part G t b) (hf : q.fits s t = true) :
    ∃ r, prodTerm q a b = some r ∧ Part G (q.outSig s t) r := by
  unfold prodTerm
  split
  · rename_i htr
    simp only [Bool.and_eq_true] at htr
    have hta : Ty G s a := by
      rcases ha with ha | ⟨c, rfl, h⟩
      · exact ha.ty
      · exact Or.inr (Or.inl ⟨c, rfl, h⟩)
    obtain ⟨r, h, ty⟩ := newProd_ty hta hb.ty hf
    refine ⟨r, h, ?_⟩
    rcases ty with rfl | ⟨c, rfl, hc⟩ | w
    · exact Or.inl rfl
    · -- a number can only come from a zero factor
      have hb' : WF G b := by
        rcases hb with rfl | hb
        · simp [Expr.truthy] at htr
        · exact hb.1
      have ob := wf_operand hb'
      unfold newProd at h
      split at h
      · rcases mkMul_cases a b with ⟨rfl, e⟩ | ⟨rfl, e⟩ | ⟨_, e⟩ | ⟨_, _, _, e⟩ | ⟨_, _, _, e⟩ | ⟨c', d, rfl, rfl, e⟩ <;>
          rw [e] at h <;> have h := Option.some.inj h
        · subst h; simp at ob
        · simp at ob
        · exact Or.inl h.symm
        · simp at h
        · simp at h
        · simp at ob
      · split at h
        · exact Or.inl (Option.some.inj h).symm
        · split at h <;> simp at h
    · exact Or.inr w
  · exact ⟨_, rfl, Or.inl rfl⟩

theorem newLin_part {G : Nat → Sig} {o : Op} {s : Sig} {a : Expr K} (ha : Part G s a)
    (ho : (o.kind = .keeps ∨ o.kind = .passes) → o.rule = .same)
    (h1 : o.kind ≠ .rejects) (h2 : o.kind ≠ .noNewOperand) :
    ∃ r, newLin o a = some r ∧ Part G (o.outSig s) r := by
  rcases ha with rfl | ⟨w, hs⟩
  · refine ⟨.num 0, ?_, Or.inl rfl⟩
    unfold newLin
    cases hk : o.kind <;> simp_all
  · have oa := wf_operand w
    by_cases hp : o.kind = .passes
    · refine ⟨a, by simp [newLin, hp], Or.inr ⟨w, ?_⟩⟩
      simp [Op.outSig, ho (Or.inr hp), hs]
    · refine ⟨.lin o a, ?_, Or.inr ⟨⟨w, ho⟩, by simp [Expr.sig, hs]⟩⟩
      unfold newLin
      cases hk : o.kind <;> simp_all

theorem split_prod_of {vars : List Var} {q : PKind} {a b : Expr K} {pa na pb nb t1 t2 t3 n t12 p : Expr K}
    (ha : split vars a = some (pa, na)) (hb : split vars b = some (pb, nb))
    (h1 : prodTerm q pa pb = some t1) (h2 : prodTerm q pa nb = some t2) (h3 : prodTerm q na pb = some t3)
    (h4 : prodTerm q na nb = some n) (h5 : mkAdd t1 t2 = some t12) (h6 : mkAdd t12 t3 = some p) :
    split vars (.prod q a b) = some (p, n) := by
  simp only [split, ha, hb, Option.bind_eq_bind, Option.bind_some]
  unfold prodTerm at h1 h2 h3 h4
  cases c1 : pa.truthy <;> cases c2 : na.truthy <;> cases c3 : pb.truthy <;> cases c4 : nb.truthy <;>
    simp [c1, c2, c3, c4] at h1 h2 h3 h4 <;> (try subst h1) <;> (try subst h2) <;> (try subst h3) <;>
    (try subst h4) <;>
    (try simp [mkAdd_zero_left, mkAdd_zero_right] at h5) <;> (try subst h5) <;>
    (try simp [mkAdd_zero_left, mkAdd_zero_right] at h6) <;> (try subst h6) <;>
    simp [pySum, mkAdd_zero_left, mkAdd_zero_right, List.filter, *]

theorem split_total {G : Nat → Sig} {vars : List Var} {e : Expr K} (hw : WF G e) (hs : Splittable vars e) :
    ∃ p n, split vars e = some (p, n) ∧ Part G e.sig p ∧ Part G e.sig n := by
  induction e with
  | num c => exact hw.elim
  | fld i s =>
    simp only [split]; split
    · exact ⟨_, _, rfl, Or.inr ⟨hw, rfl⟩, Or.inl rfl⟩
    · exact ⟨_, _, rfl, Or.inl rfl, Or.inr ⟨hw, rfl⟩⟩
  | cst s c => exact ⟨_, _, rfl, Or.inl rfl, Or.inr ⟨hw, rfl⟩⟩
  | add a b iha ihb =>
    have hw : WF G a ∧ WF G b ∧ a.sig = b.sig := hw
    obtain ⟨pa, na, ea, ppa, pna⟩ := iha hw.1 hs.1
    obtain ⟨pb, nb, eb, ppb, pnb⟩ := ihb hw.2.1 hs.2
    rw [← hw.2.2] at ppb pnb
    obtain ⟨p, hp, qp⟩ := mkAdd_part ppa ppb
    obtain ⟨n, hn, qn⟩ := mkAdd_part pna pnb
    exact ⟨p, n, by simp [split, ea, eb, pySum_two, hp, hn], qp, qn⟩
  | prod q a b iha ihb =>
    obtain ⟨hwa, hwb, hf⟩ := wf_prod_args hw
    obtain ⟨pb, nb, eb, ppb, pnb⟩ := ihb hwb hs.2
    have key : ∃ pa na, split vars a = some (pa, na) ∧ (Part G a.sig pa ∨ ∃ c, pa = .num c ∧ a.sig = []) ∧
        (Part G a.sig na ∨ ∃ c, na = .num c ∧ a.sig = []) := by
      rcases hwa with wa | ⟨c, rfl⟩
      · obtain ⟨pa, na, ea, ppa, pna⟩ := iha wa hs.1
        exact ⟨pa, na, ea, Or.inl ppa, Or.inl pna⟩
      · exact ⟨.num 0, .num c, rfl, Or.inl (Or.inl rfl), Or.inr ⟨c, rfl, rfl⟩⟩
    obtain ⟨pa, na, ea, ppa, pna⟩ := key
    obtain ⟨t1, h1, q1⟩ := prodTerm_part ppa ppb hf
    obtain ⟨t2, h2, q2⟩ := prodTerm_part ppa pnb hf
    obtain ⟨t3, h3, q3⟩ := prodTerm_part pna ppb hf
    obtain ⟨n, h4, q4⟩ := prodTerm_part pna pnb hf
    obtain ⟨t12, h5, q5⟩ := mkAdd_part q1 q2
    obtain ⟨p, h6, q6⟩ := mkAdd_part q5 q3
    exact ⟨p, n, split_prod_of ea eb h1 h2 h3 h4 h5 h6, q6, q4⟩
  | lin o a iha =>
    have hw : WF G a ∧ ((o.kind = .keeps ∨ o.kind = .passes) → o.rule = .same) := hw
    by_cases hm : Var.cls o.cls ∈ vars
    · exact ⟨.lin o a, .num 0, by simp [split, hm], Or.inr ⟨hw, rfl⟩, Or.inl rfl⟩
    · rcases hs with hs | ⟨h1, h2, hs⟩
      · exact absurd hs hm
      obtain ⟨pa, na, ea, ppa, pna⟩ := iha hw.1 hs
      obtain ⟨p, hp, qp⟩ := newLin_part ppa hw.2 h1 h2
      obtain ⟨n, hn, qn⟩ := newLin_part pna hw.2 h1 h2
      exact ⟨p, n, by simp [split, hm, ea, hp, hn], qp, qn⟩
  | un f a iha =>
    simp only [split]; split
    · exact ⟨_, _, rfl, Or.inr ⟨hw, rfl⟩, Or.inl rfl⟩
    · exact ⟨_, _, rfl, Or.inl rfl, Or.inr ⟨hw, rfl⟩⟩
  | pow a k iha =>
    simp only [split]; split
    · exact ⟨_, _, rfl, Or.inr ⟨hw, rfl⟩, Or.inl rfl⟩
    · exact ⟨_, _, rfl, Or.inl rfl, Or.inr ⟨hw, rfl⟩⟩

end Dedalus.Symb
