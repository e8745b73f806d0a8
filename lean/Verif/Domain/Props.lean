import Verif.Domain.Lemmas

/-!
# C77, C78, C79: coordinate systems, domains, and the domains of sums and products
-/

namespace Dedalus.Domain

open Spec

/-! ## C77 coordinate systems -/

/-- Two different coordinate systems that share the class, the dimension and the first coordinate compare equal. -/
theorem system_eq_refuted : ∃ a b : System, a.kind = .cartesian ∧ b.kind = .cartesian ∧ a.coords.map Coord.name = ["x", "y"] ∧ b.coords.map Coord.name = ["x", "z"] ∧
    a.eq b = true :=
  ⟨⟨0, .cartesian, [⟨false, "x"⟩, ⟨false, "y"⟩]⟩, ⟨1, .cartesian, [⟨false, "x"⟩, ⟨false, "z"⟩]⟩, rfl, rfl, rfl, rfl, rfl⟩

/-- Vectors over two different coordinate systems can be added: the signatures `(x, y)` and `(x, z)` are unified to the first one. -/
theorem unify_signature_refuted : ∃ a b : System, a.coords ≠ b.coords ∧ unifySig [a] [b] = some [a] :=
  ⟨⟨0, .cartesian, [⟨false, "x"⟩, ⟨false, "y"⟩]⟩, ⟨1, .cartesian, [⟨false, "x"⟩, ⟨false, "z"⟩]⟩, by decide, rfl⟩

/-- Exactly what the comparison looks at. -/
theorem system_eq_iff (a b : System) : a.eq b = true ↔ a.kind = b.kind ∧ a.coords.length = b.coords.length ∧ ∃ c, a.coords.head? = some c ∧ b.coords.head? = some c := by
  obtain ⟨i, k, l⟩ := a
  obtain ⟨i', k', l'⟩ := b
  unfold System.eq
  by_cases h : k = k'
  · by_cases h' : l.length = l'.length
    · cases l with
      | nil => simp [h, System.eqLoop]
      | cons c l =>
        cases l' with
        | nil => simp at h'
        | cons d l' =>
          by_cases e : c = d
          · simp only [List.length_cons] at h'
            simp [h, h', System.eqLoop, e]
          · simp only [List.length_cons] at h'
            simp [h, h', System.eqLoop, e, Ne.symm e]
    · simp [h, h']
  · simp [h]

/-- Among systems without common coordinates the comparison decides whether they are the same, so tensor signatures over them are unified exactly
if they agree. -/
theorem unify_signature_partial (systems : List System) (hne : ∀ a ∈ systems, a.coords ≠ []) (hid : ∀ a ∈ systems, ∀ b ∈ systems, a.id = b.id → a = b)
    (hd : ∀ a ∈ systems, ∀ b ∈ systems, ∀ c, c ∈ a.coords → c ∈ b.coords → a = b) :
    ∀ s t : List System, (∀ a ∈ s, a ∈ systems) → (∀ b ∈ t, b ∈ systems) → ((∃ r, unifySig s t = some r) ↔ s = t) ∧ ∀ r, unifySig s t = some r → r = s := by
  have hsame : ∀ a ∈ systems, ∀ b ∈ systems, (a.same b = true ↔ a = b) := by
    intro a ha b hb
    unfold System.same
    rw [Bool.or_eq_true, beq_iff_eq, system_eq_iff]
    constructor
    · rintro (h | ⟨-, -, c, h1, h2⟩)
      · exact hid a ha b hb h
      · exact hd a ha b hb c (List.mem_of_head? h1) (List.mem_of_head? h2)
    · rintro rfl; exact Or.inl rfl
  intro s t hs ht
  constructor
  · unfold unifySig
    constructor
    · rintro ⟨r, h⟩
      split_ifs at h with hc
      obtain ⟨hl, hall⟩ := hc
      clear h
      induction s generalizing t with
      | nil => cases t with
        | nil => rfl
        | cons b t => simp at hl
      | cons a s ih =>
        cases t with
        | nil => simp at hl
        | cons b t =>
          simp only [List.zip_cons_cons, List.all_cons, Bool.and_eq_true] at hall
          rw [(hsame a (hs a (by simp)) b (ht b (by simp))).1 hall.1, ih t (fun c hc => hs c (by simp [hc])) (fun c hc => ht c (by simp [hc])) (by simpa using hl) hall.2]
    · rintro rfl
      refine ⟨s, if_pos ⟨rfl, ?_⟩⟩
      rw [List.all_eq_true]
      intro p hp
      have : p.1 = p.2 := by
        clear ht hs
        induction s with
        | nil => simp at hp
        | cons a s ih =>
          rw [List.zip_cons_cons, List.mem_cons] at hp
          rcases hp with rfl | hp
          · rfl
          · exact ih hp
      rw [← this]
      simp [System.same]
  · intro r h
    unfold unifySig at h
    split_ifs at h
    exact (Option.some.inj h).symm

/-- With different names, the axis of a coordinate is its position in the distributor. -/
theorem axis_partial (coords : List Coord) (hn : coords.Nodup) (i : Nat) (c : Coord) (h : coords[i]? = some c) : getAxis coords c = some i := by
  obtain ⟨hi, rfl⟩ := List.getElem?_eq_some_iff.1 h
  unfold getAxis
  rw [List.findIdx?_eq_some_iff_getElem]
  refine ⟨hi, by simp, fun j hj => ?_⟩
  simp only [beq_iff_eq]
  intro e
  exact absurd ((List.Nodup.getElem_inj_iff hn).1 e) (by omega)

/-- Coordinates with the same name, made separately, are accepted in a direct product and in a distributor, and the second one gets the axis of
the first one. -/
theorem repeated_name_refuted : ∃ a b : Coord, a.name = b.name ∧ repeated [0, 1] = false ∧ getAxis [a, b] b = some 0 :=
  ⟨⟨false, "z"⟩, ⟨false, "z"⟩, rfl, rfl, rfl⟩

/-! ## C78 domains -/

theorem domain_some {l : List (Option Basis)} {D : List Basis} (h : domain l = some D) :
    D.Nodup ∧ (∀ b, b ∈ D ↔ some b ∈ l) ∧ D.Pairwise (fun a b => a.axis ≤ b.axis) ∧ (D.map Basis.key).Nodup := by
  unfold domain at h
  simp only at h
  split_ifs at h with hk
  have hD := Option.some.inj h
  subst hD
  have hp := List.perm_insertionSort (fun a b : Basis => a.axis ≤ b.axis) (orderedSet (l.filterMap id))
  refine ⟨hp.nodup_iff.2 (ordered_nodup _), fun b => ?_, ?_, ?_⟩
  · rw [hp.mem_iff, mem_ordered]
    simp
  · have : Std.Total fun a b : Basis => a.axis ≤ b.axis := ⟨fun a b => le_total _ _⟩
    have : IsTrans Basis fun a b : Basis => a.axis ≤ b.axis := ⟨fun a b c => le_trans⟩
    exact List.pairwise_insertionSort _ _
  · rw [(hp.map Basis.key).nodup_iff]
    rw [dedup_lt, not_not] at hk
    exact hk

/-- A domain of bases without common axes has exactly the given bases, Nones and repetitions aside, in the order of their axes, each ending before
the next one begins. -/
theorem domain_partial (l : List (Option Basis)) (hpos : ∀ b, some b ∈ l → 0 < b.dim) (hd : ∀ b c, some b ∈ l → some c ∈ l → ∀ a, Covers b a → Covers c a → b = c)
    (hk : ∀ b c, some b ∈ l → some c ∈ l → b.key = c.key → b.axis = c.axis) :
    ∃ D, domain l = some D ∧ D.Nodup ∧ (∀ b, b ∈ D ↔ some b ∈ l) ∧ D.Pairwise fun a b => a.axis + a.dim ≤ b.axis := by
  have hnd : ((orderedSet (l.filterMap id)).map Basis.key).Nodup := by
    refine List.Nodup.map_on ?_ (ordered_nodup _)
    intro b hb c hc e
    have hb' : some b ∈ l := by simpa using (mem_ordered _ _).1 hb
    have hc' : some c ∈ l := by simpa using (mem_ordered _ _).1 hc
    have ha := hk b c hb' hc' e
    have := hpos b hb'
    have := hpos c hc'
    exact hd b c hb' hc' b.axis ⟨le_rfl, by omega⟩ ⟨by omega, by omega⟩
  have he : domain l = some ((orderedSet (l.filterMap id)).insertionSort fun a b => a.axis ≤ b.axis) := by
    unfold domain
    exact if_neg (by rw [dedup_lt, not_not]; exact hnd)
  obtain ⟨h1, h2, h3, -⟩ := domain_some he
  refine ⟨_, he, h1, h2, ?_⟩
  have h4 := List.Pairwise.and h3 h1
  refine List.Pairwise.imp_of_mem ?_ h4
  intro a b ha hb hab
  by_contra hlt
  have hb' := (h2 b).1 hb
  exact hab.2 (hd a b ((h2 a).1 ha) hb' b.axis ⟨hab.1, by omega⟩ ⟨le_rfl, by have := hpos b hb'; omega⟩)

/-- The domain does not depend on the order of the bases, on Nones and on repetitions. -/
theorem domain_order (l l' : List (Option Basis)) (hl : ∀ b, some b ∈ l ↔ some b ∈ l') (hpos : ∀ b, some b ∈ l → 0 < b.dim)
    (hd : ∀ b c, some b ∈ l → some c ∈ l → ∀ a, Covers b a → Covers c a → b = c) (hk : ∀ b c, some b ∈ l → some c ∈ l → b.key = c.key → b.axis = c.axis) :
    domain l = domain l' := by
  obtain ⟨D, e, h1, h2, h3⟩ := domain_partial l hpos hd hk
  obtain ⟨D', e', h1', h2', h3'⟩ := domain_partial l' (fun b hb => hpos b ((hl b).2 hb)) (fun b c hb hc => hd b c ((hl b).2 hb) ((hl c).2 hc))
    fun b c hb hc => hk b c ((hl b).2 hb) ((hl c).2 hc)
  rw [e, e']
  congr 1
  have hp : D.Perm D' := (List.perm_ext_iff_of_nodup h1 h1').2 fun b => by rw [h2, h2', hl]
  refine hp.eq_of_pairwise ?_ h3 h3'
  intro a b ha _ hab hba
  have := hpos a ((h2 a).1 ha)
  omega

/-- Two different bases over the same coordinates are rejected. -/
theorem domain_rejects (l : List (Option Basis)) (b c : Basis) (hb : some b ∈ l) (hc : some c ∈ l) (hne : b ≠ c) (hk : b.key = c.key) : domain l = none := by
  cases e : domain l with
  | none => rfl
  | some D =>
    obtain ⟨-, h2, -, h4⟩ := domain_some e
    exact absurd (List.inj_on_of_nodup_map h4 ((h2 b).2 hb) ((h2 c).2 hc) hk) hne

/-- Bases that share an axis are accepted if one is over a system and the other over one of its coordinates, such as a disk and its edge; then the domain
has the edge along the first axis and the disk along the second one. -/
theorem domain_overlap_refuted : ∃ disk edge : Basis, Covers disk 0 ∧ Covers edge 0 ∧ disk ≠ edge ∧ domain [some disk, some edge] = some [disk, edge] ∧
    fullBases 2 [disk, edge] = some [some edge, some disk] :=
  ⟨⟨0, 0, 0, 2⟩, ⟨1, 1, 0, 1⟩, by decide, by decide, by decide, by decide +kernel, by decide +kernel⟩

/-- Attributes per axis: the value of the basis that has the axis, the default for axes without basis. This is `constant`, `mode_dependence`, `dealias`,
`global_shape`, `chunk_shape` and `group_shape`. -/
theorem per_axis_exact {α : Type} (dim : Nat) (default : α) (f : Basis → Nat → α) (D : List Basis) (h : ∀ b ∈ D, b.axis + b.dim ≤ dim) (hd : Disjoint D) :
    ∃ F, perAxis dim default f D = some F ∧ F.length = dim ∧ (∀ b ∈ D, ∀ s < b.dim, F[b.axis + s]? = some (f b s)) ∧
      ∀ a < dim, (∀ b ∈ D, ¬ Covers b a) → F[a]? = some default := by
  obtain ⟨F, e, hl, hF⟩ := perAxis_last dim default f D h
  refine ⟨F, e, hl, fun b hb s hs => ?_, fun a ha hn => ?_⟩
  · rw [hF _ (by have := h b hb; omega), (find_disjoint hd hb (a := b.axis + s) ⟨by omega, by omega⟩).2]
    simp
  · rw [hF a ha]
    have : D.reverse.find? (fun b => decide (Covers b a)) = none := by
      rw [List.find?_eq_none]
      intro b hb
      simpa using hn b (List.mem_reverse.1 hb)
    rw [this]

/-- The basis of an axis is the one that has the axis, None if there is none, and the subaxis counts from its first axis. -/
theorem get_basis_exact (dim : Nat) (D : List Basis) (h : ∀ b ∈ D, b.axis + b.dim ≤ dim) (hd : Disjoint D) (a : Nat) (ha : a < dim) :
    ∃ r, getBasis dim D a = some r ∧ (∀ b, r = some b ↔ b ∈ D ∧ Covers b a) ∧ ∀ b, r = some b → basisSubaxis D a = some (a - b.axis) := by
  obtain ⟨F, e, hl, hF⟩ := perAxis_last dim none (fun b _ => some b) D h
  have hg : getBasis dim D a = F[a]? := by unfold getBasis fullBases; rw [e]; rfl
  cases hf : D.reverse.find? (fun b => decide (Covers b a)) with
  | none =>
    have hn : ∀ b ∈ D, ¬ Covers b a := fun b hb => by simpa using List.find?_eq_none.1 hf b (List.mem_reverse.2 hb)
    refine ⟨none, by rw [hg, hF a ha, hf], fun b => ⟨fun c => by simp at c, fun c => absurd c.2 (hn b c.1)⟩, fun b c => by simp at c⟩
  | some c =>
    have hc := List.mem_reverse.1 (List.mem_of_find?_eq_some hf)
    have hc' : Covers c a := by simpa using List.find?_some hf
    refine ⟨some c, by rw [hg, hF a ha, hf], fun b => ⟨fun e => ?_, fun hb => ?_⟩, fun b e => ?_⟩
    · cases e; exact ⟨hc, hc'⟩
    · rw [hd c hc b hb.1 a hc' hb.2]
    · cases e
      unfold basisSubaxis
      have := (find_disjoint hd hc hc').1
      unfold Covers at this
      rw [this]
      rfl

/-- Substituting a basis keeps all other bases, drops the old one, and adds the new one unless it is None. -/
theorem substitute_exact (D : List Basis) (old : Basis) (new : Option Basis) (hn : D.Nodup) (hpos : ∀ b ∈ D, 0 < b.dim) (hpos' : ∀ c, new = some c → 0 < c.dim)
    (hd : Disjoint D) (hk : ∀ b ∈ D, ∀ c ∈ D, b.key = c.key → b.axis = c.axis)
    (hnew : ∀ c, new = some c → ∀ b ∈ D, b ≠ old → (∀ a, Covers b a → ¬ Covers c a) ∧ b.key ≠ c.key) :
    ∃ E, substitute D (some old) new = some E ∧ (∀ b, b ∈ E ↔ (b ∈ D ∧ b ≠ old) ∨ new = some b) ∧ E.Pairwise fun a b => a.axis + a.dim ≤ b.axis := by
  have hm : ∀ b, some b ∈ (D.erase old).map some ++ [new] ↔ (b ∈ D ∧ b ≠ old) ∨ new = some b := by
    intro b
    rw [List.mem_append, List.mem_map, List.mem_singleton]
    constructor
    · rintro (⟨c, hc, e⟩ | e)
      · cases e
        exact Or.inl ⟨List.mem_of_mem_erase hc, ((List.Nodup.mem_erase_iff hn).1 hc).1⟩
      · exact Or.inr e.symm
    · rintro (⟨h1, h2⟩ | e)
      · exact Or.inl ⟨b, (List.Nodup.mem_erase_iff hn).2 ⟨h2, h1⟩, rfl⟩
      · exact Or.inr e.symm
  obtain ⟨E, e, h1, h2, h3⟩ := domain_partial ((D.erase old).map some ++ [new]) (fun b hb => ((hm b).1 hb).elim (fun h => hpos b h.1) (hpos' b))
    (by
      intro b c hb hc a h1 h2
      rcases (hm b).1 hb with hb | hb
      · rcases (hm c).1 hc with hc | hc
        · exact hd b hb.1 c hc.1 a h1 h2
        · exact absurd h2 ((hnew c hc b hb.1 hb.2).1 a h1)
      · rcases (hm c).1 hc with hc | hc
        · exact absurd h1 ((hnew b hb c hc.1 hc.2).1 a h2)
        · rw [hb] at hc; exact Option.some.inj hc)
    (by
      intro b c hb hc ek
      rcases (hm b).1 hb with hb | hb
      · rcases (hm c).1 hc with hc | hc
        · exact hk b hb.1 c hc.1 ek
        · exact absurd ek (hnew c hc b hb.1 hb.2).2
      · rcases (hm c).1 hc with hc | hc
        · exact absurd ek.symm (hnew b hb c hc.1 hc.2).2
        · rw [hb] at hc; rw [Option.some.inj hc])
  exact ⟨E, e, fun b => (h2 b).trans (hm b), h3⟩

/-! ## C79 sums and products -/

theorem mapM_congr_mem {α β : Type} {f g : α → Option β} {l : List α} (h : ∀ a ∈ l, f a = g a) : l.mapM f = l.mapM g := by
  induction l with
  | nil => rfl
  | cons a l ih => rw [List.mapM_cons, List.mapM_cons, h a (by simp), ih fun b hb => h b (by simp [hb])]

theorem combine_comm (op : Basis → Basis → Option Basis) (h : ∀ b c, op b c = op c b) (p q : Option Basis) : combine op p q = combine op q p := by
  cases p <;> cases q <;> simp [combine, h]

/-- If the bases of both arguments are over the systems of the distributor, the bases of a sum are, system by system, the sums of the bases of the
arguments, None being neutral. -/
theorem sum_domain_partial (add : Basis → Basis → Option Basis) (keys : List Nat) (D0 D1 : List Basis) (h0 : ∀ b ∈ D0, b.key ∈ keys) (h1 : ∀ b ∈ D1, b.key ∈ keys)
    (n0 : (D0.map Basis.key).Nodup) (n1 : (D1.map Basis.key).Nodup) :
    ∃ K : List Nat, K.Nodup ∧ (∀ k, k ∈ K ↔ k ∈ keys) ∧ (sumBases add keys D0 D1 = K.mapM fun k => combine add (Spec.at D0 k) (Spec.at D1 k)) ∧
      sumBases add keys D1 D0 = K.mapM fun k => combine add (Spec.at D1 k) (Spec.at D0 k) := by
  obtain ⟨b1, b2, -⟩ := base_table keys [] (by simp) (by simp)
  have hm : ∀ k, k ∈ (keys.foldl (fun t k => assign t k none) []).map Prod.fst ↔ k ∈ keys := fun k => by rw [b2]; simp
  have main : ∀ D0 D1 : List Basis, (∀ b ∈ D0, b.key ∈ keys) → (∀ b ∈ D1, b.key ∈ keys) → (D0.map Basis.key).Nodup → (D1.map Basis.key).Nodup →
      sumBases add keys D0 D1 = ((keys.foldl (fun t k => assign t k none) []).map Prod.fst).mapM fun k => combine add (Spec.at D0 k) (Spec.at D1 k) := by
    intro D0 D1 h0 h1 n0 n1
    unfold sumBases
    rw [(byCoord_regular keys D0 h0 n0).1, List.mapM_map]
    refine mapM_congr_mem fun k hk => ?_
    simp only [Function.comp, (byCoord_regular keys D1 h1 n1).2 k ((hm k).1 hk), Option.join_some]
    cases Spec.at D0 k <;> cases Spec.at D1 k <;> rfl
  exact ⟨_, b1, hm, main D0 D1 h0 h1 n0 n1, main D1 D0 h1 h0 n1 n0⟩

/-- Then the bases of a sum do not depend on the order of the arguments, if the sum of two bases does not. -/
theorem sum_symmetric_partial (add : Basis → Basis → Option Basis) (hc : ∀ b c, add b c = add c b) (keys : List Nat) (D0 D1 : List Basis) (h0 : ∀ b ∈ D0, b.key ∈ keys)
    (h1 : ∀ b ∈ D1, b.key ∈ keys) (n0 : (D0.map Basis.key).Nodup) (n1 : (D1.map Basis.key).Nodup) : sumBases add keys D0 D1 = sumBases add keys D1 D0 := by
  obtain ⟨K, -, -, e, e'⟩ := sum_domain_partial add keys D0 D1 h0 h1 n0 n1
  rw [e, e']
  exact mapM_congr_mem fun k _ => combine_comm add hc _ _

/-- The same for products. -/
theorem product_domain_partial (mul : Basis → Basis → Option Basis) (keys : List Nat) (D0 D1 : List Basis) (h0 : ∀ b ∈ D0, b.key ∈ keys) (h1 : ∀ b ∈ D1, b.key ∈ keys)
    (n0 : (D0.map Basis.key).Nodup) (n1 : (D1.map Basis.key).Nodup) :
    ∃ K : List Nat, K.Nodup ∧ (∀ k, k ∈ K ↔ k ∈ keys) ∧ (productBases mul keys D0 D1 = K.mapM fun k => combine mul (Spec.at D0 k) (Spec.at D1 k)) ∧
      productBases mul keys D1 D0 = K.mapM fun k => combine mul (Spec.at D1 k) (Spec.at D0 k) := by
  obtain ⟨b1, b2, -⟩ := base_table keys [] (by simp) (by simp)
  have hm : ∀ k, k ∈ (keys.foldl (fun t k => assign t k none) []).map Prod.fst ↔ k ∈ keys := fun k => by rw [b2]; simp
  have main : ∀ D0 D1 : List Basis, (∀ b ∈ D0, b.key ∈ keys) → (∀ b ∈ D1, b.key ∈ keys) → (D0.map Basis.key).Nodup → (D1.map Basis.key).Nodup →
      productBases mul keys D0 D1 = ((keys.foldl (fun t k => assign t k none) []).map Prod.fst).mapM fun k => combine mul (Spec.at D0 k) (Spec.at D1 k) := by
    intro D0 D1 h0 h1 n0 n1
    unfold productBases
    rw [(byCoord_regular keys D0 h0 n0).1, List.mapM_map]
    refine mapM_congr_mem fun k hk => ?_
    simp only [Function.comp, (byCoord_regular keys D1 h1 n1).2 k ((hm k).1 hk), Option.bind_some]
    cases Spec.at D0 k <;> cases Spec.at D1 k <;> rfl
  exact ⟨_, b1, hm, main D0 D1 h0 h1 n0 n1, main D1 D0 h1 h0 n1 n0⟩

theorem product_symmetric_partial (mul : Basis → Basis → Option Basis) (hc : ∀ b c, mul b c = mul c b) (keys : List Nat) (D0 D1 : List Basis) (h0 : ∀ b ∈ D0, b.key ∈ keys)
    (h1 : ∀ b ∈ D1, b.key ∈ keys) (n0 : (D0.map Basis.key).Nodup) (n1 : (D1.map Basis.key).Nodup) : productBases mul keys D0 D1 = productBases mul keys D1 D0 := by
  obtain ⟨K, -, -, e, e'⟩ := product_domain_partial mul keys D0 D1 h0 h1 n0 n1
  rw [e, e']
  exact mapM_congr_mem fun k _ => combine_comm mul hc _ _

/-- Polar coordinates (system 0), a field on the edge of a disk (over the azimuth, key 1) and a constant: the sum with the constant first has no
basis at all, the sum with the constant second has the basis of the edge. -/
theorem sum_domain_refuted (add : Basis → Basis → Option Basis) : ∃ edge : Basis, sumBases add [0, 0] [] [edge] = some [none] ∧
    sumBases add [0, 0] [edge] [] = some [none, some edge] :=
  ⟨⟨0, 1, 0, 1⟩, rfl, rfl⟩

/-- The product of the edge field with the constant is a KeyError, the product of the constant with the edge field has no basis; likewise the edge field
cannot multiply a field on the disk, though the disk field can multiply it. -/
theorem product_domain_refuted (mul : Basis → Basis → Option Basis) : ∃ disk edge : Basis, productBases mul [0, 0] [edge] [] = none ∧
    productBases mul [0, 0] [] [edge] = some [none] ∧ productBases mul [0, 0] [edge] [disk] = none ∧ productBases mul [0, 0] [disk] [edge] = some [some disk] :=
  ⟨⟨0, 0, 0, 2⟩, ⟨1, 1, 0, 1⟩, rfl, rfl, rfl, rfl⟩

/-- The sum of a field on a disk and one on its edge, the edge first, has both bases, and the domain is accepted. -/
theorem sum_overlap_refuted (add : Basis → Basis → Option Basis) : ∃ disk edge : Basis, ∃ R, sumBases add [0, 0] [edge] [disk] = some R ∧
    ∃ D, domain R = some D ∧ disk ∈ D ∧ edge ∈ D ∧ ¬ Disjoint D := by
  refine ⟨⟨0, 0, 0, 2⟩, ⟨1, 1, 0, 1⟩, _, rfl, [⟨0, 0, 0, 2⟩, ⟨1, 1, 0, 1⟩], by decide +kernel, by decide, by decide, fun h => ?_⟩
  exact absurd (h ⟨0, 0, 0, 2⟩ (by decide) ⟨1, 1, 0, 1⟩ (by decide) 0 (by decide) (by decide)) (by decide)

/-! ## Cases that meet the hypotheses -/

/-- A vertical basis and a disk, in a direct product of polar coordinates (axes 0, 1) and a vertical coordinate (axis 2). -/
example : domain [some ⟨0, 5, 2, 1⟩, none, some ⟨1, 6, 0, 2⟩, some ⟨0, 5, 2, 1⟩] = some [⟨1, 6, 0, 2⟩, ⟨0, 5, 2, 1⟩] ∧
    fullBases 3 [⟨1, 6, 0, 2⟩, ⟨0, 5, 2, 1⟩] = some [some ⟨1, 6, 0, 2⟩, some ⟨1, 6, 0, 2⟩, some ⟨0, 5, 2, 1⟩] ∧
    substitute [⟨1, 6, 0, 2⟩, ⟨0, 5, 2, 1⟩] (some ⟨0, 5, 2, 1⟩) (some ⟨2, 5, 2, 1⟩) = some [⟨1, 6, 0, 2⟩, ⟨2, 5, 2, 1⟩] ∧
    sumBases (fun b _ => some b) [6, 6, 5] [⟨0, 5, 2, 1⟩] [⟨1, 6, 0, 2⟩] = some [some ⟨1, 6, 0, 2⟩, some ⟨0, 5, 2, 1⟩] := by
  refine ⟨by decide +kernel, by decide +kernel, by decide +kernel, by decide +kernel⟩

example : Disjoint [⟨1, 6, 0, 2⟩, ⟨0, 5, 2, 1⟩] := by
  intro b hb c hc a h1 h2
  unfold Covers at h1 h2
  simp only [List.mem_cons, List.not_mem_nil, or_false] at hb hc
  rcases hb with rfl | rfl <;> rcases hc with rfl | rfl <;> first | rfl | (simp only at h1 h2; omega)

/-- C77. The check of `DirectProduct` fires exactly if one coordinate object occurs twice. -/
theorem repeated_iff (ids : List Nat) : repeated ids = true ↔ ¬ ids.Nodup := by
  unfold repeated
  rw [decide_eq_true_eq]
  constructor
  · intro h hn
    rw [List.dedup_eq_self.2 hn] at h
    exact Nat.lt_irrefl _ h
  · intro h
    refine Nat.lt_of_le_of_ne (List.dedup_sublist ids).length_le fun e => h ?_
    rw [← (List.dedup_sublist ids).eq_of_length e]
    exact List.nodup_dedup ids

example : repeated [4, 7, 4] = true ∧ repeated [4, 7, 5] = false := by decide

end Dedalus.Domain
