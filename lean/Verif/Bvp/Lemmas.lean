import Verif.Bvp.Spec
import Verif.Subsys.Props
import Mathlib.Algebra.BigOperators.Group.List.Lemmas
import Mathlib.Tactic.Ring

namespace Dedalus.Bvp

open Subsys

variable {K : Type} [Field K]

theorem sum_expand (src : List Nat) (n : Nat) (v : List K) (A : Nat → K) (hn : src.Nodup) (hlt : ∀ i ∈ src, i < n)
    (hv : v.length = src.length) :
    ((List.range n).map fun j => A j * (if j ∈ src then (v[src.idxOf j]?).getD 0 else 0)).sum = dot (src.map A) v := by
  have h1 : ((List.range n).map fun j => A j * (if j ∈ src then (v[src.idxOf j]?).getD 0 else 0)).sum =
      (((List.range n).filter (· ∈ src)).map fun j => A j * (v[src.idxOf j]?).getD 0).sum := by
    induction List.range n with
    | nil => simp
    | cons a l ih =>
      by_cases h : a ∈ src
      · rw [List.map_cons, List.sum_cons, ih, List.filter_cons_of_pos (by simpa using h)]
        simp [h]
      · rw [List.map_cons, List.sum_cons, ih, List.filter_cons_of_neg (by simpa using h)]
        simp [h]
  have h2 : ((List.range n).filter (· ∈ src)).Perm src := by
    rw [List.perm_ext_iff_of_nodup (List.nodup_range.filter _) hn]
    intro a
    simp only [List.mem_filter, List.mem_range, decide_eq_true_eq]
    exact ⟨fun h => h.2, fun h => ⟨hlt a h, h⟩⟩
  rw [h1, (h2.map _).sum_eq, dot]
  congr 1
  apply List.ext_getElem
  · simp [hv]
  · intro k h3 h4
    simp only [List.length_map] at h3
    simp only [List.getElem_map, List.getElem_zipWith]
    rw [hn.idxOf_getElem k h3, List.getElem?_eq_getElem (by omega)]
    simp

theorem scatter_read (src : List Nat) (cols : List (List Addr)) : ∀ (vs : List (List K)) (st : Store K),
    (∀ c ∈ cols, c.Nodup) → cols.Pairwise List.Disjoint → vs.length = cols.length →
    ∀ (k : Nat) c v, cols[k]? = some c → vs[k]? = some v →
      readCol (scatterInputs src cols vs st) c = expand src c.length v := by
  induction cols with
  | nil => intro vs st _ _ _ k c v h; simp at h
  | cons c0 cols ih =>
    intro vs st h1 h2 h3 k c v hc hv
    cases vs with
    | nil => simp at h3
    | cons v0 vs =>
      obtain ⟨h4, h5⟩ := List.pairwise_cons.1 h2
      cases k with
      | zero =>
        simp only [List.getElem?_cons_zero, Option.some.injEq] at hc hv
        subst hc; subst hv
        rw [scatterInputs]
        have : readCol (scatterInputs src cols vs (writeCol st c0 (expand src c0.length v0))) c0 =
            readCol (writeCol st c0 (expand src c0.length v0)) c0 := by
          unfold readCol
          apply List.map_congr_left
          intro a ha
          exact scatter_frame src cols vs _ a fun d hd hda => h4 d hd ha hda
        rw [this, readCol_writeCol _ _ _ (h1 c0 (by simp)) (by simp [expand])]
      | succ k =>
        simp only [List.getElem?_cons_succ] at hc hv
        rw [scatterInputs]
        exact ih vs _ (fun d hd => h1 d (by simp [hd])) h5 (by simpa using h3) k c v hc hv

theorem sum_zipIdx (ins : List Addr) (X : Store K) (A : Nat → K) (e : List K) (h : readCol X ins = e) :
    ((ins.zipIdx).map fun (a, j) => A j * X a).sum = ((List.range ins.length).map fun j => A j * (e[j]?).getD 0).sum := by
  congr 1
  subst h
  apply List.ext_getElem
  · simp
  · intro k h1 h2
    simp only [List.length_map, List.length_zipIdx] at h1
    simp [readCol, h1]

/-- One subproblem: gather, solve, scatter. -/
theorem solveOne_solved {sp : Sp} (hok : sp.Ok) (hsq : sp.srcEq.length = sp.srcVar.length) {A : Nat → Nat → K}
    {s : List K → List K}
    (hs : ∀ b, b.length = (minMatrix sp A).length →
      (s b).length = (minMatrix sp A).length ∧ (minMatrix sp A).map (fun r => dot r (s b)) = b)
    (F X : Store K) : sp.Solved A (solveOne sp s F X) F := by
  intro k ins outs hi ho
  have hml : (minMatrix sp A).length = sp.srcEq.length := by simp [minMatrix]
  have hgo : (gatherOutputs sp F)[k]? = some (compress sp.srcEq (readCol F outs)) := by
    simp [gatherOutputs, ho]
  have hol : outs.length = sp.nEq := hok.outLen _ (List.mem_of_getElem? ho)
  have hil : ins.length = sp.nVar := hok.inLen _ (List.mem_of_getElem? hi)
  set b := compress sp.srcEq (readCol F outs) with hb
  have hbe : b = sp.srcEq.pmap (fun i hi => F (outs[i]'(by rw [hol]; exact hi))) hok.eqLt := by
    rw [hb]
    unfold compress
    have : ∀ l : List Nat, (hl : ∀ i ∈ l, i < sp.nEq) →
        l.filterMap (fun x => (readCol F outs)[x]?) = l.pmap (fun i hi => F (outs[i]'(by rw [hol]; exact hi))) hl := by
      intro l
      induction l with
      | nil => intro _; rfl
      | cons i l ih =>
        intro hl
        have hi := hl i (by simp)
        have h0 : (readCol F outs)[i]? = some (F (outs[i]'(by rw [hol]; exact hi))) := by
          simp [readCol, List.getElem?_eq_getElem (show i < outs.length by omega)]
        rw [List.filterMap_cons_some h0, ih fun j hj => hl j (by simp [hj])]
        rfl
    exact this _ _
  have hbl : b.length = (minMatrix sp A).length := by rw [hbe, hml]; simp
  obtain ⟨hsl, hsb⟩ := hs b hbl
  have hread := scatter_read sp.srcVar sp.inputs ((gatherOutputs sp F).map s) X hok.inNodup hok.inDisjoint
    (by simp [gatherOutputs, hok.count]) k ins (s b) hi (by rw [List.getElem?_map, hgo]; rfl)
  rw [hil] at hread
  change readCol (solveOne sp s F X) ins = _ at hread
  refine ⟨fun i him o hout => ?_, fun j hj a ha => ?_⟩
  · rw [sum_zipIdx ins _ (A i) _ hread, hil]
    have he : ((List.range sp.nVar).map fun j => A i j * ((expand sp.srcVar sp.nVar (s b))[j]?).getD 0) =
        (List.range sp.nVar).map fun j => A i j * (if j ∈ sp.srcVar then ((s b)[sp.srcVar.idxOf j]?).getD 0 else 0) := by
      apply List.map_congr_left
      intro j hj
      simp [expand, List.mem_range.1 hj]
    rw [he, sum_expand _ _ _ _ hok.varNodup hok.varLt (by rw [hsl, hml, hsq])]
    obtain ⟨p, hp, rfl⟩ := List.getElem_of_mem him
    have h1 : ((minMatrix sp A).map (fun r => dot r (s b)))[p]? = b[p]? := by rw [hsb]
    rw [List.getElem?_map, minMatrix, List.getElem?_map, List.getElem?_eq_getElem hp] at h1
    simp only [Option.map_some] at h1
    have h5 : b[p]? = some (F (outs[sp.srcEq[p]]'(by rw [hol]; exact hok.eqLt _ him))) := by
      rw [hbe, List.getElem?_eq_getElem (by simpa using hp), List.getElem_pmap]
    rw [h5] at h1
    rw [Option.some.inj h1]
    obtain ⟨h2, h3⟩ := List.getElem?_eq_some_iff.1 hout
    rw [h3]
  · have h1 : (readCol (solveOne sp s F X) ins)[j]? =
        (expand sp.srcVar sp.nVar (s b))[j]? := by rw [hread]
    obtain ⟨h2, h3⟩ := List.getElem?_eq_some_iff.1 ha
    rw [readCol, List.getElem?_map, ha] at h1
    simp [expand, show j < sp.nVar by omega, hj] at h1
    exact h1

/-- Entries outside the subproblem do not change. -/
theorem solveOne_frame (sp : Sp) (s : List K → List K) (F X : Store K) (a : Addr) (h : ∀ c ∈ sp.inputs, a ∉ c) :
    solveOne sp s F X a = X a := scatter_frame _ _ _ _ _ h

theorem solved_congr {sp : Sp} {A : Nat → Nat → K} {X Y F : Store K} (h : ∀ c ∈ sp.inputs, ∀ a ∈ c, X a = Y a)
    (hx : sp.Solved A X F) : sp.Solved A Y F := by
  intro k ins outs hi ho
  obtain ⟨h1, h2⟩ := hx k ins outs hi ho
  have hm := List.mem_of_getElem? hi
  refine ⟨fun i him b hb => ?_, fun j hj a ha => ?_⟩
  · rw [← h1 i him b hb]
    congr 1
    apply List.map_congr_left
    rintro ⟨a, j⟩ haj
    have : a ∈ ins := (List.mem_zipIdx' haj).2 ▸ List.getElem_mem _
    simp [h ins hm a this]
  · rw [← h ins hm a (List.mem_of_getElem? ha)]; exact h2 j hj a ha

/-- The handler is due whenever the iteration has grown. -/
theorem evaluate_due {r : Rhs K} (h : r.divs.iter < r.iteration) (F : Store K) :
    (r.evaluate F).F = F ∧ (r.evaluate F).iteration = r.iteration ∧ (r.evaluate F).divs.iter = r.iteration := by
  have h' : r.divs.iter < (r.iteration : ℤ) := h
  simp [Rhs.evaluate, Sched.checkSchedule, Sched.checkWall, Sched.checkSim, Sched.checkIter, h']

theorem evaluate_not_due {r : Rhs K} (h : ¬ r.divs.iter < r.iteration) (F : Store K) :
    (r.evaluate F).F = r.F ∧ (r.evaluate F).iteration = r.iteration ∧ (r.evaluate F).divs.iter = r.divs.iter := by
  have h' : ¬ r.divs.iter < (r.iteration : ℤ) := h
  simp [Rhs.evaluate, Sched.checkSchedule, Sched.checkWall, Sched.checkSim, Sched.checkIter, h']

/-! ### The cache -/

theorem buildAll_mem {W : Type} {P : Linear K W} {w : W} : ∀ {todo : List Nat} {mats}, buildAll P w todo = .ok mats →
    (∀ n, n ∈ mats.map Prod.fst ↔ n ∈ todo) ∧ ∀ n m, (n, m) ∈ mats → ∃ sp, P.sps[n]? = some sp ∧
      sp.srcEq.length = sp.srcVar.length ∧ m = minMatrix sp (P.A w n)
  | [], mats, h => by
    obtain rfl : mats = [] := by simpa [buildAll] using h.symm
    simp
  | n :: ns, mats, h => by
    rw [buildAll] at h
    cases hsp : P.sps[n]? with
    | none => rw [hsp] at h; simp at h
    | some sp =>
      rw [hsp] at h
      simp only [buildMatrix] at h
      by_cases hsq : sp.srcEq.length ≠ sp.srcVar.length
      · rw [if_pos hsq] at h; simp [bind, Except.bind] at h
      · rw [if_neg hsq] at h
        cases hr : buildAll P w ns with
        | error e => rw [hr] at h; simp [bind, Except.bind] at h
        | ok rest =>
          rw [hr] at h
          obtain rfl : mats = (n, minMatrix sp (P.A w n)) :: rest := by
            simpa [bind, Except.bind] using h.symm
          obtain ⟨h1, h2⟩ := buildAll_mem hr
          refine ⟨fun k => ?_, fun k m hk => ?_⟩
          · simp only [List.map_cons, List.mem_cons, h1]
          · rcases List.mem_cons.1 hk with hk | hk
            · obtain ⟨rfl, rfl⟩ := Prod.mk.inj hk
              exact ⟨sp, hsp, not_not.1 hsq, rfl⟩
            · exact h2 k m hk

theorem factorAll_lookup {ms : Matsolver K} : ∀ {mats : List (Nat × Rows K)} {cache cache' : List (Nat × (List K → List K))},
    factorAll ms mats cache = (cache', none) → ∀ n,
      (∃ m s, (n, m) ∈ mats ∧ ms m = some s ∧ cache'.lookup n = some s) ∨
      (n ∉ mats.map Prod.fst ∧ cache'.lookup n = cache.lookup n)
  | [], cache, cache', h => by
    obtain rfl : cache = cache' := by simpa [factorAll] using h
    intro n; right; simp
  | (k, m) :: rest, cache, cache', h => by
    rw [factorAll] at h
    cases hm : ms m with
    | none => rw [hm] at h; simp at h
    | some s =>
      rw [hm] at h
      intro n
      rcases factorAll_lookup h n with ⟨m', s', h1, h2, h3⟩ | ⟨h1, h2⟩
      · exact .inl ⟨m', s', by simp [h1], h2, h3⟩
      · by_cases hnk : n = k
        · subst hnk
          left
          exact ⟨m, s, by simp, hm, by rw [h2]; simp [List.lookup]⟩
        · right
          refine ⟨by simp only [List.map_cons, List.mem_cons, not_or]; exact ⟨hnk, h1⟩, ?_⟩
          have hb : (n == k) = false := by simpa using hnk
          rw [h2]
          simp only [List.lookup, hb]

theorem solveAll_spec {W : Type} {P : Linear K W} (hok : ∀ sp ∈ P.sps, sp.Ok) (hsep : Separate P.sps)
    {cache : List (Nat × (List K → List K))} {F : Store K} (A : Nat → Nat → Nat → K)
    (hc : ∀ n sp s, P.sps[n]? = some sp → cache.lookup n = some s → sp.srcEq.length = sp.srcVar.length ∧
      ∀ b, b.length = (minMatrix sp (A n)).length →
        (s b).length = (minMatrix sp (A n)).length ∧ (minMatrix sp (A n)).map (fun r => dot r (s b)) = b) :
    ∀ {sel : List Nat} {X X' : Store K}, solveAll P cache F sel X = .ok X' →
      (∀ n ∈ sel, ∃ sp, P.sps[n]? = some sp ∧ sp.Solved (A n) X' F) ∧
      ∀ a, (∀ n ∈ sel, ∀ sp, P.sps[n]? = some sp → ∀ c ∈ sp.inputs, a ∉ c) → X' a = X a
  | [], X, X', h => by
    obtain rfl : X = X' := by simpa [solveAll] using h
    simp
  | n :: ns, X, X', h => by
    rw [solveAll] at h
    cases hsp : P.sps[n]? with
    | none => rw [hsp] at h; simp at h
    | some sp =>
      cases hl : cache.lookup n with
      | none => rw [hsp, hl] at h; simp at h
      | some s =>
        rw [hsp, hl] at h
        simp only at h
        obtain ⟨h1, h2⟩ := solveAll_spec hok hsep A hc h
        refine ⟨fun k hk => ?_, fun a ha => ?_⟩
        · by_cases hkn : k ∈ ns
          · exact h1 k hkn
          · obtain rfl : k = n := by simpa [hkn] using hk
            refine ⟨sp, hsp, ?_⟩
            obtain ⟨hsq, hs⟩ := hc k sp s hsp hl
            refine solved_congr ?_ (solveOne_solved (hok sp (List.mem_of_getElem? hsp)) hsq hs F X)
            intro c hcm a ha
            refine (h2 a fun m hm q hq d hd had => ?_).symm
            have hmk : m ≠ k := fun e => hkn (e ▸ hm)
            obtain ⟨hk1, hk2⟩ := List.getElem?_eq_some_iff.1 hsp
            obtain ⟨hm1, hm2⟩ := List.getElem?_eq_some_iff.1 hq
            have hpw := List.pairwise_iff_getElem.1 hsep
            rcases Nat.lt_or_gt_of_ne hmk with hlt | hlt
            · exact hpw m k hm1 hk1 hlt d (by rw [hm2]; exact hd) c (by rw [hk2]; exact hcm) had ha
            · exact hpw k m hk1 hm1 hlt c (by rw [hk2]; exact hcm) d (by rw [hm2]; exact hd) ha had
        · rw [h2 a fun m hm => ha m (by simp [hm]), solveOne_frame]
          exact ha n (by simp) sp hsp

end Dedalus.Bvp
