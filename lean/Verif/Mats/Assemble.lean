import Verif.Mats.Expr

/-! Block assembly. -/

namespace Dedalus.Mats

open Dedalus.Symb hiding eval Sem

variable {K X : Type} [Field K] [DecidableEq K]

/-- Row `i` of a list of entries, times a vector. -/
def listVal (cut : K → K) (xv : Nat → K) (i : Nat) (l : List (K × Nat × Nat)) : K :=
  (l.map (fun t => if t.2.1 = i then cut t.1 * xv t.2.2 else 0)).sum

omit [DecidableEq K] in
theorem listVal_append (cut : K → K) (xv : Nat → K) (i : Nat) (l l' : List (K × Nat × Nat)) :
    listVal cut xv i (l ++ l') = listVal cut xv i l + listVal cut xv i l' := by
  simp [listVal]

omit [DecidableEq K] in
theorem listVal_zero {cut : K → K} {xv : Nat → K} {i : Nat} {l : List (K × Nat × Nat)}
    (h : ∀ t ∈ l, t.2.1 ≠ i) : listVal cut xv i l = 0 := by
  unfold listVal
  apply List.sum_eq_zero
  intro x hx
  obtain ⟨t, ht, rfl⟩ := List.mem_map.1 hx
  rw [if_neg (h t ht)]

omit [DecidableEq K] in
theorem coo_row (cut : K → K) (xv : Nat → K) (i J : Nat) (l : List (K × Nat × Nat)) (h : ∀ t ∈ l, t.2.2 < J) :
    ∑ j ∈ Finset.range J, ((l.filter (fun t => t.2.1 = i && t.2.2 = j)).map (fun t => cut t.1)).sum * xv j =
      listVal cut xv i l := by
  induction l with
  | nil => simp [listVal]
  | cons t rest ih =>
    have ih := ih (fun t ht => h t (by simp [ht]))
    have ht := h t (by simp)
    have hl : listVal cut xv i (t :: rest) = (if t.2.1 = i then cut t.1 * xv t.2.2 else 0) + listVal cut xv i rest := by
      simp [listVal]
    rw [hl, ← ih]
    by_cases hi : t.2.1 = i
    · have : ∀ j, ((List.filter (fun t => decide (t.2.1 = i) && decide (t.2.2 = j)) (t :: rest)).map (fun t => cut t.1)).sum * xv j =
          (if t.2.2 = j then cut t.1 * xv j else 0) +
          ((List.filter (fun t => decide (t.2.1 = i) && decide (t.2.2 = j)) rest).map (fun t => cut t.1)).sum * xv j := by
        intro j
        by_cases hj : t.2.2 = j
        · simp [hi, hj, add_mul]
        · simp [hj]
      simp only [this, Finset.sum_add_distrib]
      rw [Finset.sum_ite_eq]
      simp [hi, ht]
    · simp [hi]

omit [DecidableEq K] in
theorem cooBlock_mem {i0 j0 : Nat} {m : Mat K} {t : K × Nat × Nat} :
    t ∈ cooBlock i0 j0 m ↔ ∃ r c, r < m.rows ∧ c < m.cols ∧ t = (m.e r c, i0 + r, j0 + c) := by
  simp only [cooBlock, List.mem_flatMap, List.mem_range, List.mem_map]
  constructor
  · rintro ⟨r, hr, c, hc, rfl⟩; exact ⟨r, c, hr, hc, rfl⟩
  · rintro ⟨r, c, hr, hc, rfl⟩; exact ⟨r, hr, c, hc, rfl⟩

omit [DecidableEq K] in
theorem cooBlock_val (cut : K → K) (xv : Nat → K) (i0 j0 : Nat) (m : Mat K) (r : Nat) (hr : r < m.rows) :
    listVal cut xv (i0 + r) (cooBlock i0 j0 m) = ∑ c ∈ Finset.range m.cols, cut (m.e r c) * xv (j0 + c) := by
  have key : ∀ n, listVal cut xv (i0 + r) ((List.range n).flatMap fun r => (List.range m.cols).map fun c => (m.e r c, i0 + r, j0 + c)) =
      if r < n then ∑ c ∈ Finset.range m.cols, cut (m.e r c) * xv (j0 + c) else 0 := by
    intro n
    induction n with
    | zero => simp [listVal]
    | succ n ih =>
      rw [List.range_succ, List.flatMap_append, listVal_append, ih]
      simp only [List.flatMap_cons, List.flatMap_nil, List.append_nil]
      by_cases hrn : r = n
      · subst hrn
        simp only [lt_irrefl, if_false, Nat.lt_succ_self, if_true, zero_add]
        simp only [listVal, List.map_map, Function.comp_def, if_true]
        rfl
      · have z : listVal cut xv (i0 + r) ((List.range m.cols).map fun c => (m.e n c, i0 + n, j0 + c)) = 0 := by
          apply listVal_zero
          intro t ht
          obtain ⟨c, _, rfl⟩ := List.mem_map.1 ht
          simp only; omega
        rw [z, add_zero]
        by_cases h : r < n
        · rw [if_pos h, if_pos (by omega)]
        · rw [if_neg h, if_neg (by omega)]
  rw [cooBlock, key, if_pos hr]

/-- The block of a variable, or nothing. -/
def blockVal (x : Nat → Nat → K) (r : Nat) (D : Dict K) (v : Nat) : K :=
  match D.lookup v with
  | some m => rowVal x r (v, m)
  | none => 0

omit [DecidableEq K] in
theorem lookup_none {D : Dict K} {v : Nat} (h : v ∉ D.map Prod.fst) : D.lookup v = none := by
  induction D with
  | nil => rfl
  | cons p rest ih =>
    simp only [List.map_cons, List.mem_cons, not_or] at h
    simp only [List.lookup]
    have : (v == p.1) = false := by simpa using h.1
    rw [this]; exact ih h.2

omit [DecidableEq K] in
theorem lookup_mem {D : Dict K} {v : Nat} {m : Mat K} (h : D.lookup v = some m) : (v, m) ∈ D := by
  induction D with
  | nil => simp at h
  | cons p rest ih =>
    simp only [List.lookup] at h
    split at h
    · rename_i hh
      obtain rfl := Option.some.inj h
      have : v = p.1 := by simpa using hh
      subst this; simp
    · exact List.mem_cons_of_mem _ (ih h)

omit [DecidableEq K] in
theorem sum_blocks {x : Nat → Nat → K} {r : Nat} {D : Dict K} {V : List Nat} (hV : V.Nodup)
    (hD : (D.map Prod.fst).Nodup) (hsub : ∀ p ∈ D, p.1 ∈ V) :
    (V.map (blockVal x r D)).sum = dictVal x r D := by
  induction D with
  | nil =>
    simp only [dictVal, List.map_nil, List.sum_nil]
    apply List.sum_eq_zero
    intro y hy
    obtain ⟨v, _, rfl⟩ := List.mem_map.1 hy
    rfl
  | cons p rest ih =>
    obtain ⟨k, m⟩ := p
    have hk : k ∉ rest.map Prod.fst := (List.nodup_cons.1 hD).1
    replace ih := ih (List.nodup_cons.1 hD).2 (fun p hp => hsub p (by simp [hp]))
    have e : ∀ v, blockVal x r ((k, m) :: rest) v = (if v = k then rowVal x r (k, m) else 0) + blockVal x r rest v := by
      intro v
      by_cases hv : v = k
      · subst hv
        simp [blockVal, lookup_none hk]
      · have : (v == k) = false := by simpa using hv
        simp [blockVal, List.lookup, this, hv]
    rw [show blockVal x r ((k, m) :: rest) = fun v => (if v = k then rowVal x r (k, m) else 0) + blockVal x r rest v from funext e]
    have hd : dictVal x r ((k, m) :: rest) = rowVal x r (k, m) + dictVal x r rest := by simp [dictVal]
    rw [hd, ← ih]
    have hkV : k ∈ V := hsub (k, m) (by simp)
    clear ih e hd hsub
    induction V with
    | nil => simp at hkV
    | cons w V ihV =>
      obtain ⟨hw, hV'⟩ := List.nodup_cons.1 hV
      simp only [List.map_cons, List.sum_cons]
      by_cases hwk : w = k
      · subst hwk
        have : V.map (fun v => (if v = w then rowVal x r (w, m) else 0) + blockVal x r rest v) =
            V.map (blockVal x r rest) := by
          apply List.map_congr_left
          intro v hv
          rw [if_neg (by rintro rfl; exact hw hv), zero_add]
        rw [this]; simp; ring
      · have hkV : k ∈ V := by
          rcases List.mem_cons.1 hkV with h | h
          · exact absurd h.symm hwk
          · exact h
        rw [ihV hV' hkV, if_neg hwk]; ring

/-- Entries made by the loop over variables. -/
theorem rowBlocks_mem {S : Sub K} {G : Nat → Sig} {n : Nat} {V : List Nat} {D : Dict K} {i0 j0 : Nat} {vars : List (Nat × Sig)}
    (hD : DictOK n (fun v => S.size (.fld v (G v))) V D) (hG : ∀ v ∈ vars, v.2 = G v.1)
    {t : K × Nat × Nat} (ht : t ∈ rowBlocks S D i0 j0 vars) :
    (i0 ≤ t.2.1 ∧ t.2.1 < i0 + n) ∧ j0 ≤ t.2.2 ∧ t.2.2 < j0 + (vars.map (fun v => S.size (.fld v.1 v.2))).sum := by
  induction vars generalizing j0 with
  | nil => simp [rowBlocks] at ht
  | cons v vs ih =>
    simp only [rowBlocks, List.mem_append] at ht
    simp only [List.map_cons, List.sum_cons]
    rcases ht with ht | ht
    · split at ht
      · cases hl : D.lookup v.1 with
        | none => simp [hl] at ht
        | some m =>
          simp only [hl] at ht
          obtain ⟨r, c, hr, hc, rfl⟩ := cooBlock_mem.1 ht
          obtain ⟨h1, h2, _⟩ := hD.1 _ (lookup_mem hl)
          rw [h1] at hr
          have h2 : m.cols = S.size (.fld v.1 (G v.1)) := h2
          rw [h2, ← hG v (by simp)] at hc
          exact ⟨⟨by simp, by simp; omega⟩, by simp, by simp; omega⟩
      · simp at ht
    · have := ih (fun w hw => hG w (by simp [hw])) ht
      omega

theorem rowBlocks_val {S : Sub K} {G : Nat → Sig} {n : Nat} {V : List Nat} {D : Dict K} {i0 j0 : Nat} {vars : List (Nat × Sig)}
    (hD : DictOK n (fun v => S.size (.fld v (G v))) V D) (hG : ∀ v ∈ vars, v.2 = G v.1)
    {x : Nat → Nat → K} {xv : Nat → K}
    (hx : ∀ k (hk : k < vars.length) j, j < S.size (.fld (vars[k]).1 (vars[k]).2) →
      xv (j0 + ((vars.map (fun v => S.size (.fld v.1 v.2))).take k).sum + j) = x (vars[k]).1 j)
    (r : Nat) (hr : r < n) :
    listVal (fun c => c) xv (i0 + r) (rowBlocks S D i0 j0 vars) = (vars.map (fun v => blockVal x r D v.1)).sum := by
  induction vars generalizing j0 with
  | nil => simp [rowBlocks, listVal]
  | cons v vs ih =>
    simp only [rowBlocks, listVal_append, List.map_cons, List.sum_cons]
    have hv := hG v (by simp)
    rw [ih (fun w hw => hG w (by simp [hw]))]
    · congr 1
      have h0 := hx 0 (by simp)
      simp only [List.getElem_cons_zero, List.take_zero, List.sum_nil, add_zero] at h0
      unfold blockVal
      cases hl : D.lookup v.1 with
      | none => simp [listVal]
      | some m =>
        obtain ⟨h1, h2, _⟩ := hD.1 _ (lookup_mem hl)
        simp only at h1 h2
        rw [← hv] at h2
        split
        · simp only
          rw [cooBlock_val _ _ _ _ _ _ (by omega)]
          simp only [rowVal]
          apply Finset.sum_congr rfl
          intro c hc
          rw [h0 c (by rw [← h2]; exact Finset.mem_range.1 hc)]
        · rename_i hz
          have hz : m.cols = 0 := by rw [h2]; simpa using hz
          simp [rowVal, hz, listVal]
    · intro k hk j hj
      have := hx (k + 1) (by simp; omega) j (by simpa using hj)
      simp only [List.getElem_cons_succ, List.map_cons, List.take_succ_cons, List.sum_cons] at this
      rw [← this]; congr 1; omega

/-- The value equation `q` should have in row `r`. -/
def eqnValue (T : Sem K X) (env : Nat → X → K) (idx : Expr K → Nat → X) (q : Eqn K) (r : Nat) : K :=
  match q.cond, q.expr with
  | true, some x => eval T env x (idx x r)
  | _, _ => 0

theorem eqnBlocks_cons {S : Sub K} {vars : List (Nat × Sig)} {i0 : Nat} {q : Eqn K} {qs : List (Eqn K)} {l : List (K × Nat × Nat)}
    (h : eqnBlocks S vars i0 (q :: qs) = some l) :
    ∃ here rest, l = here ++ rest ∧ eqnBlocks S vars (i0 + q.size) qs = some rest ∧
      ((here = [] ∧ (q.size = 0 ∨ q.cond = false ∨ q.expr = none)) ∨
       ∃ x D, q.size ≠ 0 ∧ q.cond = true ∧ q.expr = some x ∧ exprMats S vars x = some D ∧ here = rowBlocks S D i0 0 vars) := by
  simp only [eqnBlocks] at h
  obtain ⟨here, hh, h⟩ := Option.bind_eq_some_iff.1 h
  obtain ⟨rest, hr, h⟩ := Option.bind_eq_some_iff.1 h
  refine ⟨here, rest, (Option.some.inj h).symm, hr, ?_⟩
  unfold eqnEntries at hh
  split at hh
  · rename_i hc
    cases hx : q.expr with
    | none =>
      simp only [hx] at hh
      exact Or.inl ⟨(Option.some.inj hh).symm, Or.inr (Or.inr rfl)⟩
    | some x =>
      simp only [hx] at hh
      obtain ⟨D, hD, hh⟩ := Option.map_eq_some_iff.1 hh
      exact Or.inr ⟨x, D, hc.1, hc.2, rfl, hD, hh.symm⟩
  · rename_i hc
    refine Or.inl ⟨(Option.some.inj hh).symm, ?_⟩
    by_cases h0 : q.size = 0
    · exact Or.inl h0
    · exact Or.inr (Or.inl (by simpa [h0] using hc))

variable (S : Sub K) (idx : Expr K → Nat → X) (T : Sem K X) (env : Nat → X → K) (G : Nat → Sig)

theorem eqnBlocks_mem {vars : List (Nat × Sig)} (hG : ∀ v ∈ vars, v.2 = G v.1) (hnd : (vars.map Prod.fst).Nodup)
    {qs : List (Eqn K)} (hq : ∀ q ∈ qs, ∀ x, q.expr = some x → Good S idx T env x ∧ S.size x = q.size)
    {i0 : Nat} {l : List (K × Nat × Nat)} (h : eqnBlocks S vars i0 qs = some l) {t : K × Nat × Nat} (ht : t ∈ l) :
    (i0 ≤ t.2.1 ∧ t.2.1 < i0 + (qs.map Eqn.size).sum) ∧ t.2.2 < (vars.map (fun v => S.size (.fld v.1 v.2))).sum := by
  induction qs generalizing i0 l with
  | nil => simp [eqnBlocks] at h; subst h; simp at ht
  | cons q qs ih =>
    obtain ⟨here, rest, rfl, hr, hc⟩ := eqnBlocks_cons h
    simp only [List.map_cons, List.sum_cons]
    rcases List.mem_append.1 ht with ht | ht
    · rcases hc with ⟨rfl, _⟩ | ⟨x, D, _, _, hx, hD, rfl⟩
      · simp at ht
      · obtain ⟨g, sz⟩ := hq q (by simp) x hx
        have o := (exprMats_spec S idx T env G hG hnd g hD).1
        rw [sz] at o
        have := rowBlocks_mem o hG ht
        omega
    · have := ih (fun q hq' => hq q (by simp [hq'])) hr ht
      omega

theorem eqnBlocks_val {vars : List (Nat × Sig)} (hG : ∀ v ∈ vars, v.2 = G v.1) (hnd : (vars.map Prod.fst).Nodup)
    {qs : List (Eqn K)} (hq : ∀ q ∈ qs, ∀ x, q.expr = some x → Good S idx T env x ∧ S.size x = q.size)
    {xv : Nat → K}
    (hx : ∀ k (hk : k < vars.length) j, j < S.size (.fld (vars[k]).1 (vars[k]).2) →
      xv (((vars.map (fun v => S.size (.fld v.1 v.2))).take k).sum + j) = env (vars[k]).1 (idx (.fld (vars[k]).1 (vars[k]).2) j))
    {i0 : Nat} {l : List (K × Nat × Nat)} (h : eqnBlocks S vars i0 qs = some l)
    (n : Nat) (hn : n < qs.length) (r : Nat) (hr : r < (qs[n]).size) :
    listVal (fun c => c) xv (i0 + ((qs.map Eqn.size).take n).sum + r) l = eqnValue T env idx (qs[n]) r := by
  induction qs generalizing i0 l n with
  | nil => simp at hn
  | cons q qs ih =>
    obtain ⟨here, rest, rfl, hrest, hc⟩ := eqnBlocks_cons h
    have hq' : ∀ q ∈ qs, ∀ x, q.expr = some x → Good S idx T env x ∧ S.size x = q.size := fun q hq' => hq q (by simp [hq'])
    rw [listVal_append]
    have here_rows : ∀ t ∈ here, t.2.1 < i0 + q.size := by
      rcases hc with ⟨rfl, _⟩ | ⟨x, D, _, _, hx', hD, rfl⟩
      · simp
      · intro t ht
        obtain ⟨g, sz⟩ := hq q (by simp) x hx'
        have o := (exprMats_spec S idx T env G hG hnd g hD).1
        rw [sz] at o
        exact (rowBlocks_mem o hG ht).1.2
    cases n with
    | zero =>
      simp only [List.take_zero, List.sum_nil, add_zero, List.getElem_cons_zero] at hr ⊢
      have z : listVal (fun c => c) xv (i0 + r) rest = 0 := by
        apply listVal_zero
        intro t ht
        have := (eqnBlocks_mem S idx T env G hG hnd hq' hrest ht).1.1
        omega
      rw [z, add_zero]
      rcases hc with ⟨rfl, h0⟩ | ⟨x, D, _, hcond, hx', hD, rfl⟩
      · rcases h0 with h0 | h0 | h0
        · omega
        · simp [listVal, eqnValue, h0]
        · cases hcc : q.cond <;> simp [listVal, eqnValue, h0, hcc]
      · obtain ⟨g, sz⟩ := hq q (by simp) x hx'
        obtain ⟨o, val⟩ := exprMats_spec S idx T env G hG hnd g hD
        have o' := o
        rw [sz] at o'
        rw [rowBlocks_val o' hG (x := fun v j => env v (idx (.fld v (G v)) j)) _ r hr]
        · have : vars.map (fun v => blockVal (fun v j => env v (idx (.fld v (G v)) j)) r D v.1) =
              (vars.map Prod.fst).map (blockVal (fun v j => env v (idx (.fld v (G v)) j)) r D) := by simp [Function.comp_def]
          rw [this, sum_blocks hnd o.2 (fun p hp => (o.1 p hp).2.2), ← val r (by rw [sz]; exact hr)]
          simp [eqnValue, hcond, hx']
        · intro k hk j hj
          rw [zero_add, hx k hk j hj, hG _ (List.getElem_mem hk)]
    | succ n =>
      simp only [List.map_cons, List.take_succ_cons, List.sum_cons, List.getElem_cons_succ] at hr ⊢
      have z : listVal (fun c => c) xv (i0 + (q.size + ((qs.map Eqn.size).take n).sum) + r) here = 0 := by
        apply listVal_zero
        intro t ht
        have := here_rows t ht
        omega
      rw [z, zero_add]
      have := ih hq' hrest n (by simpa using hn) hr
      rw [← this]; congr 1; omega

end Dedalus.Mats
