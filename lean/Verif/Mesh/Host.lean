import Verif.Mesh.Esuel

/-!
# Host cells and orientation of boundary faces (C28, C29)
-/

namespace FVENS
namespace Msh

/-! ### `std::set_intersection` -/

theorem mem_setIntersection : ∀ {as bs : List ℕ}, as.Pairwise (· < ·) → bs.Pairwise (· < ·) →
    ∀ x, x ∈ setIntersection as bs ↔ x ∈ as ∧ x ∈ bs
  | [], bs, _, _, x => by simp [setIntersection]
  | a :: as, [], _, _, x => by simp [setIntersection]
  | a :: as, b :: bs, ha, hb, x => by
    have ha' := List.pairwise_cons.1 ha
    have hb' := List.pairwise_cons.1 hb
    rw [setIntersection]
    split_ifs with h1 h2
    · rw [mem_setIntersection ha'.2 hb]
      constructor
      · rintro ⟨h, h'⟩; exact ⟨List.mem_cons_of_mem _ h, h'⟩
      · rintro ⟨h, h'⟩
        refine ⟨?_, h'⟩
        rcases List.mem_cons.1 h with rfl | h
        · exfalso
          rcases List.mem_cons.1 h' with rfl | h'
          · omega
          · have := hb'.1 _ h'; omega
        · exact h
    · rw [mem_setIntersection ha hb'.2]
      constructor
      · rintro ⟨h, h'⟩; exact ⟨h, List.mem_cons_of_mem _ h'⟩
      · rintro ⟨h, h'⟩
        refine ⟨h, ?_⟩
        rcases List.mem_cons.1 h' with rfl | h'
        · exfalso
          rcases List.mem_cons.1 h with rfl | h
          · omega
          · have := ha'.1 _ h; omega
        · exact h'
    · obtain rfl : a = b := by omega
      rw [List.mem_cons, mem_setIntersection ha'.2 hb'.2, List.mem_cons, List.mem_cons]
      constructor
      · rintro (h | ⟨h, h'⟩)
        · exact ⟨Or.inl h, Or.inl h⟩
        · exact ⟨Or.inr h, Or.inr h'⟩
      · rintro ⟨h | h, h' | h'⟩
        · exact Or.inl h
        · exact Or.inl h
        · exact Or.inl h'
        · exact Or.inr ⟨h, h'⟩
termination_by as bs => as.length + bs.length

theorem setIntersection_pairwise : ∀ {as bs : List ℕ}, as.Pairwise (· < ·) → bs.Pairwise (· < ·) →
    (setIntersection as bs).Pairwise (· < ·)
  | [], bs, _, _ => by simp [setIntersection]
  | a :: as, [], _, _ => by simp [setIntersection]
  | a :: as, b :: bs, ha, hb => by
    have ha' := List.pairwise_cons.1 ha
    have hb' := List.pairwise_cons.1 hb
    rw [setIntersection]
    split_ifs with h1 h2
    · exact setIntersection_pairwise ha'.2 hb
    · exact setIntersection_pairwise ha hb'.2
    · refine List.pairwise_cons.2 ⟨fun x hx => ?_, setIntersection_pairwise ha'.2 hb'.2⟩
      exact ha'.1 x ((mem_setIntersection ha'.2 hb'.2 x).1 hx).1
termination_by as bs => as.length + bs.length

/-! ### Specification -/

/-- Cell `i` has `v` among its vertices. -/
def HasVertex (m : Mesh) (i v : ℕ) : Prop := i < m.nelem ∧ ∃ j, j < m.nnode i ∧ m.inpoel i j = v

/-- Cell `i` contains both end points of a boundary face. -/
def HasBoth (m : Mesh) (p q i : ℕ) : Prop := HasVertex m i p ∧ HasVertex m i q

theorem mem_esup {m : Mesh} (hm : Lin m) {v : ℕ} (hv : v < m.npoin) (i : ℕ) :
    i ∈ (esup m).list v ↔ HasVertex m i v := by
  rw [C25_membership hm.nodesOk hv]
  constructor
  · rintro ⟨hi, j, hj, h⟩; exact ⟨hi, j, by rw [← hm.nf i hi]; exact hj, h⟩
  · rintro ⟨hi, j, hj, h⟩; exact ⟨hi, j, by rw [hm.nf i hi]; exact hj, h⟩

theorem esup_pairwise {m : Mesh} (hm : Lin m) {v : ℕ} (hv : v < m.npoin) :
    ((esup m).list v).Pairwise (· < ·) :=
  C25_strictly_increasing hm.nodesOk (fun i hi j k hj hk => by
    rw [hm.nf i hi] at hj hk; exact hm.inj i hi j k hj hk) hv

theorem sortNat_esup {m : Mesh} (hm : Lin m) {v : ℕ} (hv : v < m.npoin) :
    sortNat ((esup m).list v) = (esup m).list v :=
  List.Pairwise.insertionSort_eq ((esup_pairwise hm hv).imp (fun h => le_of_lt h))

theorem mem_inter {m : Mesh} (hm : Lin m) {p q : ℕ} (hp : p < m.npoin) (hq : q < m.npoin) (i : ℕ) :
    i ∈ setIntersection (sortNat ((esup m).list q)) (sortNat ((esup m).list p)) ↔ HasBoth m p q i := by
  rw [sortNat_esup hm hp, sortNat_esup hm hq,
    mem_setIntersection (esup_pairwise hm hq) (esup_pairwise hm hp), mem_esup hm hp, mem_esup hm hq]
  exact and_comm

theorem inter_pairwise {m : Mesh} (hm : Lin m) {p q : ℕ} (hp : p < m.npoin) (hq : q < m.npoin) :
    (setIntersection (sortNat ((esup m).list q)) (sortNat ((esup m).list p))).Pairwise (· < ·) := by
  rw [sortNat_esup hm hp, sortNat_esup hm hq]
  exact setIntersection_pairwise (esup_pairwise hm hq) (esup_pairwise hm hp)

theorem faceNodeI_zero (m : Mesh) {i f : ℕ} (hf : f < m.nnode i) : faceNodeI m i f 0 = m.inpoel i f := by
  simp [faceNodeI, Nat.mod_eq_of_lt hf]

theorem faceNodeI_one (m : Mesh) (i f : ℕ) : faceNodeI m i f 1 = m.inpoel i ((f + 1) % m.nnode i) := rfl

/-- The local face index search finds the local face with the given end points. -/
theorem faceEIndex_eq_some {m : Mesh} (hm : Lin m) {p q i f : ℕ} (hi : i < m.nelem) :
    faceEIndex m p q i = some f ↔ f < m.nnode i ∧ edge m (i, f) = s(p, q) := by
  have pred : ∀ g, g < m.nnode i → (((List.range 2).all fun k => decide (faceNodeI m i g k = p)
      || decide (faceNodeI m i g k = q)) = true ↔ edge m (i, g) = s(p, q)) := by
    intro g hg
    have hne := hm.node_ne hi hg
    simp only [show List.range 2 = [0, 1] from rfl, List.all_cons, List.all_nil, Bool.and_true,
      Bool.and_eq_true, Bool.or_eq_true, faceNodeI_zero m hg, edge,
      Sym2.eq_iff, decide_eq_true_eq]
    rw [faceNodeI_one]
    generalize m.inpoel i g = a at hne ⊢
    generalize m.inpoel i ((g + 1) % m.nnode i) = b at hne ⊢
    constructor
    · rintro ⟨rfl | rfl, rfl | rfl⟩ <;> simp_all
    · rintro (⟨rfl, rfl⟩ | ⟨rfl, rfl⟩) <;> simp
  unfold faceEIndex
  constructor
  · intro h
    have h1 := List.find?_some h
    have h2 := List.mem_of_find?_eq_some h
    simp only [List.mem_range, hm.nf i hi] at h2
    exact ⟨h2, (pred f h2).1 h1⟩
  · rintro ⟨hf, he⟩
    cases hc : (List.range (m.nfael i)).find? fun ifael =>
        (List.range 2).all fun k => decide (faceNodeI m i ifael k = p) || decide (faceNodeI m i ifael k = q) with
    | none =>
      rw [List.find?_eq_none] at hc
      exact absurd ((pred f hf).2 he) (hc f (by simp [hm.nf i hi, hf]))
    | some g =>
      have h1 := List.find?_some hc
      have h2 := List.mem_of_find?_eq_some hc
      simp only [List.mem_range, hm.nf i hi] at h2
      have := (pred g h2).1 h1
      rw [hm.edge_inj hi hf h2 (he.trans this.symm)]

/-! ### C28 -/

/-- C28: the lookup succeeds with cell `e` and local face `f` exactly if `e` is the only cell containing
both nodes and they are the end points of its face `f`. -/
theorem C28_ok_iff {m : Mesh} (hm : Lin m) {p q : ℕ} (hp : p < m.npoin) (hq : q < m.npoin) (e f : ℕ) :
    bfaceHost m (esup m) p q = .ok (e, f) ↔
      (∀ i, HasBoth m p q i ↔ i = e) ∧ f < m.nnode e ∧ edge m (e, f) = s(p, q) := by
  have hmem := mem_inter hm hp hq
  have hpw := inter_pairwise hm hp hq
  unfold bfaceHost
  generalize setIntersection (sortNat ((esup m).list q)) (sortNat ((esup m).list p)) = L at hmem hpw
  rcases L with _ | ⟨a, _ | ⟨b, L⟩⟩
  · simp only [List.length_nil, not_lt_zero, if_false]
    constructor
    · intro h; cases h
    · rintro ⟨h, _⟩; exact absurd ((hmem e).2 ((h e).2 rfl)) (by simp)
  · simp only [List.length_cons, List.length_nil, zero_add, lt_irrefl, if_false]
    have ha : HasBoth m p q a := (hmem a).1 (by simp)
    have huniq : ∀ i, HasBoth m p q i ↔ i = a := fun i => by rw [← hmem i]; simp
    have hia := ha.1.1
    constructor
    · intro h
      cases hf : faceEIndex m p q a with
      | none => rw [hf] at h; cases h
      | some g =>
        rw [hf] at h
        simp only [BC.Res.ok.injEq, Prod.mk.injEq] at h
        obtain ⟨rfl, rfl⟩ := h
        exact ⟨huniq, (faceEIndex_eq_some hm hia).1 hf⟩
    · rintro ⟨h, hf⟩
      obtain rfl : a = e := (h a).1 ha
      rw [(faceEIndex_eq_some hm hia).2 hf]
  · have hlt : 1 < (a :: b :: L).length := by simp
    simp only [hlt, if_true]
    constructor
    · intro h; cases h
    · rintro ⟨h, _⟩
      have h1 := (h a).1 ((hmem a).1 (by simp))
      have h2 := (h b).1 ((hmem b).1 (by simp))
      have h3 := (List.pairwise_cons.1 hpw).1 b (by simp)
      omega

/-- C28: the error is raised exactly if two different cells contain both nodes. -/
theorem C28_throws_iff {m : Mesh} (hm : Lin m) {p q : ℕ} (hp : p < m.npoin) (hq : q < m.npoin) :
    bfaceHost m (esup m) p q = .throws ↔ ∃ i j, i ≠ j ∧ HasBoth m p q i ∧ HasBoth m p q j := by
  have hmem := mem_inter hm hp hq
  have hpw := inter_pairwise hm hp hq
  unfold bfaceHost
  generalize setIntersection (sortNat ((esup m).list q)) (sortNat ((esup m).list p)) = L at hmem hpw
  rcases L with _ | ⟨a, _ | ⟨b, L⟩⟩
  · simp only [List.length_nil, not_lt_zero, if_false]
    constructor
    · intro h; cases h
    · rintro ⟨i, j, _, hi, _⟩; exact absurd ((hmem i).2 hi) (by simp)
  · simp only [List.length_cons, List.length_nil, zero_add, lt_irrefl, if_false]
    constructor
    · intro h
      cases hf : faceEIndex m p q a <;> rw [hf] at h <;> cases h
    · rintro ⟨i, j, hne, hi, hj⟩
      have h1 := (hmem i).2 hi
      have h2 := (hmem j).2 hj
      simp at h1 h2; omega
  · have hlt : 1 < (a :: b :: L).length := by simp
    simp only [hlt, if_true, true_iff]
    have h3 := (List.pairwise_cons.1 hpw).1 b (by simp)
    exact ⟨a, b, by omega, (hmem a).1 (by simp), (hmem b).1 (by simp)⟩

/-- C28: the lookup has undefined behaviour exactly if no cell contains both nodes, or the only one that
does has them as a diagonal and not as a face. -/
theorem C28_ub_iff {m : Mesh} (hm : Lin m) {p q : ℕ} (hp : p < m.npoin) (hq : q < m.npoin) :
    bfaceHost m (esup m) p q = .ub ↔ (∀ i j, HasBoth m p q i → HasBoth m p q j → i = j) ∧
      ∀ i f, HasBoth m p q i → f < m.nnode i → edge m (i, f) ≠ s(p, q) := by
  have ht := C28_throws_iff hm hp hq
  have ho := C28_ok_iff hm hp hq
  constructor
  · intro h
    have hu : ∀ i j, HasBoth m p q i → HasBoth m p q j → i = j := by
      intro i j hi hj
      by_contra hne
      rw [ht.2 ⟨i, j, hne, hi, hj⟩] at h; cases h
    refine ⟨hu, fun i f hi hf he => ?_⟩
    rw [(ho i f).2 ⟨fun j => ⟨fun hj => hu j i hj hi, fun hj => by rw [hj]; exact hi⟩, hf, he⟩] at h
    cases h
  · rintro ⟨hu, hd⟩
    cases h : bfaceHost m (esup m) p q with
    | ub => rfl
    | throws => obtain ⟨i, j, hne, hi, hj⟩ := ht.1 h; exact absurd (hu i j hi hj) hne
    | ok x =>
      obtain ⟨h1, h2, h3⟩ := (ho x.1 x.2).1 h
      exact absurd h3 (hd x.1 x.2 ((h1 x.1).2 rfl) h2)

/-- Concrete cases on the hybrid mesh: a boundary face, the interior edge, an edge of no cell, a diagonal. -/
example : bfaceHost exMesh (esup exMesh) 4 1 = .ok (1, 0) := by
  rw [C28_ok_iff exMesh_lin (by show 4 < 5; decide) (by show 1 < 5; decide)]
  refine ⟨fun i => ⟨?_, ?_⟩, by show 0 < 3; decide, by decide⟩
  · rintro ⟨⟨hi, h⟩, _⟩
    have hi : i < 2 := hi
    by_contra hne
    obtain rfl : i = 0 := by omega
    obtain ⟨j, hj, he⟩ := h
    have : ∀ j, j < 4 → exMesh.inpoel 0 j ≠ 4 := by decide
    exact this j hj he
  · rintro rfl
    exact ⟨⟨by show 1 < 2; decide, 1, by show 1 < 3; decide, rfl⟩, ⟨by show 1 < 2; decide, 0, by show 0 < 3; decide, rfl⟩⟩
example : bfaceHost exMesh (esup exMesh) 1 2 = .throws := by
  rw [C28_throws_iff exMesh_lin (by show 1 < 5; decide) (by show 2 < 5; decide)]
  exact ⟨0, 1, by decide, ⟨⟨by show 0 < 2; decide, 1, by show 1 < 4; decide, rfl⟩, ⟨by show 0 < 2; decide, 2, by show 2 < 4; decide, rfl⟩⟩,
    ⟨⟨by show 1 < 2; decide, 0, by show 0 < 3; decide, rfl⟩, ⟨by show 1 < 2; decide, 2, by show 2 < 3; decide, rfl⟩⟩⟩

/-- C28: a boundary face whose nodes lie in no common cell is not diagnosed: undefined behaviour. -/
theorem C28_orphan_refuted : Lin exMesh ∧ (∀ i, ¬ HasBoth exMesh 3 4 i) ∧
    bfaceHost exMesh (esup exMesh) 3 4 = .ub := by
  have hno : ∀ i, ¬ HasBoth exMesh 3 4 i := by
    rintro i ⟨⟨hi, j, hj, h3⟩, ⟨_, k, hk, h4⟩⟩
    have hi : i < 2 := hi
    obtain rfl | rfl : i = 0 ∨ i = 1 := by omega
    · have : ∀ k, k < 4 → exMesh.inpoel 0 k ≠ 4 := by decide
      exact this k hk h4
    · have : ∀ k, k < 3 → exMesh.inpoel 1 k ≠ 3 := by decide
      exact this j hj h3
  refine ⟨exMesh_lin, hno, ?_⟩
  rw [C28_ub_iff exMesh_lin (by show 3 < 5; decide) (by show 4 < 5; decide)]
  exact ⟨fun i _ hi => absurd hi (hno i), fun i _ hi => absurd hi (hno i)⟩

/-! ### C29 -/

theorem mapRes_ok {α β : Type} (f : α → BC.Res β) : ∀ (l : List α) (r : List β),
    mapRes f l = .ok r ↔ r.length = l.length ∧ ∀ k (h : k < l.length) (h' : k < r.length), f l[k] = .ok r[k]
  | [], r => by
    simp only [mapRes, BC.Res.ok.injEq, List.length_nil]
    constructor
    · rintro rfl; simp
    · rintro ⟨h, _⟩; exact (List.eq_nil_of_length_eq_zero h).symm
  | a :: l, r => by
    have ih := mapRes_ok f l
    constructor
    · intro h
      simp only [mapRes] at h
      cases ha : f a with
      | throws => rw [ha] at h; cases h
      | ub => rw [ha] at h; cases h
      | ok b =>
        rw [ha] at h
        cases hl : mapRes f l with
        | throws => simp [hl] at h
        | ub => simp [hl] at h
        | ok bs =>
          simp only [hl, BC.Res.ok.injEq] at h
          subst h
          obtain ⟨h1, h2⟩ := (ih bs).1 hl
          refine ⟨by simp [h1], fun k hk hk' => ?_⟩
          rcases k with _ | k
          · exact ha
          · exact h2 k (by simpa using hk) (by simpa using hk')
    · rintro ⟨hlen, hk⟩
      rcases r with _ | ⟨b, bs⟩
      · simp at hlen
      · have ha := hk 0 (by simp) (by simp)
        have hl := (ih bs).2 ⟨by simpa using hlen, fun k h h' => hk (k + 1) (by simpa using h) (by simpa using h')⟩
        simp only [List.getElem_cons_zero] at ha
        simp [mapRes, ha, hl]

/-- The boundary faces refer to existing points. -/
def BfOk (m : Mesh) : Prop := ∀ k, k < m.nbface → m.bface k 0 < m.npoin ∧ m.bface k 1 < m.npoin

theorem hostAt_eq (hosts : List (ℕ × ℕ)) {k : ℕ} (h : k < hosts.length) : hostAt hosts k = hosts[k] := by
  simp [hostAt, h]

theorem bfaceHosts_ok {m : Mesh} {c : Csr} {hosts : List (ℕ × ℕ)} (h : bfaceHosts m c = .ok hosts) :
    hosts.length = m.nbface ∧ ∀ k, k < m.nbface →
      bfaceHost m c (m.bface k 0) (m.bface k 1) = .ok (hostAt hosts k) := by
  obtain ⟨h1, h2⟩ := (mapRes_ok _ _ _).1 h
  simp only [List.length_range] at h1
  refine ⟨h1, fun k hk => ?_⟩
  have := h2 k (by simpa using hk) (by rw [h1]; exact hk)
  rw [List.getElem_range] at this
  rw [this]
  congr 1
  exact (hostAt_eq hosts (by rw [h1]; exact hk)).symm

/-- Effect of the orientation loop. -/
theorem orient_loop {m : Mesh} (hosts : List (ℕ × ℕ)) (b0 : ℕ → ℕ → ℕ) (n : ℕ) :
    let b := forLt n b0 fun iface b => orientBody m iface (hostAt hosts iface) b
    ∀ k j, b k j = if k < n ∧ j < 2 ∧
        (faceNodeI m (hostAt hosts k).1 (hostAt hosts k).2 0 ≠ b0 k 0 ∨
         faceNodeI m (hostAt hosts k).1 (hostAt hosts k).2 1 ≠ b0 k 1)
      then b0 k (1 - j) else b0 k j := by
  induction n with
  | zero => intro b k j; simp [b, forLt_zero]
  | succ n ih =>
    intro b k j
    simp only at ih
    have hb : b = orientBody m n (hostAt hosts n)
      (forLt n b0 fun iface b => orientBody m iface (hostAt hosts iface) b) := forLt_succ _ _ _
    rw [hb]
    generalize (forLt n b0 fun iface b => orientBody m iface (hostAt hosts iface) b) = c at ih
    have h0 : c n 0 = b0 n 0 := by rw [ih]; simp
    have h1 : c n 1 = b0 n 1 := by rw [ih]; simp
    unfold orientBody
    rw [h0, h1]
    by_cases hkn : k = n
    · subst hkn
      split_ifs with hc hd hd
      · rcases (by omega : j = 0 ∨ j = 1) with rfl | rfl
        · simp [upd2]
        · simp [upd2]
      · have hj : ¬ j < 2 := fun hj => hd ⟨by omega, hj, hc⟩
        have a0 : j ≠ 0 := by omega
        have a1 : j ≠ 1 := by omega
        simp [upd2, a0, a1, ih]
      · exact absurd hd.2.2 hc
      · rw [ih]; simp
    · have hlt : (k < n + 1) ↔ k < n := by omega
      simp only [hlt]
      rw [← ih k j]
      split_ifs with hc
      · simp [upd2, hkn]
      · rfl

/-- Hosts of the corrected mesh. -/
theorem bfaceHost_swap {m : Mesh} (hm : Lin m) {p q : ℕ} (hp : p < m.npoin) (hq : q < m.npoin) (x : ℕ × ℕ) :
    bfaceHost m (esup m) p q = .ok x ↔ bfaceHost m (esup m) q p = .ok x := by
  rcases x with ⟨e, f⟩
  rw [C28_ok_iff hm hp hq, C28_ok_iff hm hq hp, Sym2.eq_swap (a := p)]
  simp only [HasBoth]
  constructor
  · rintro ⟨h, h'⟩; exact ⟨fun i => by rw [← h i]; exact and_comm, h'⟩
  · rintro ⟨h, h'⟩; exact ⟨fun i => by rw [← h i]; exact and_comm, h'⟩

/-- C29: after a successful correction every boundary face lists its nodes in the order of its host
cell (so that the cell is to its left), and the node sets, tags and everything else are unchanged. -/
theorem C29_oriented {m m' : Mesh} (hm : Lin m) (hb : BfOk m) (h : correctOrientation m = .ok m') :
    (∀ k, k < m.nbface → ∃ e f, e < m.nelem ∧ f < m.nnode e ∧
        bfaceHost m (esup m) (m.bface k 0) (m.bface k 1) = .ok (e, f) ∧
        m'.bface k 0 = m.inpoel e f ∧ m'.bface k 1 = m.inpoel e ((f + 1) % m.nnode e)) ∧
    (∀ k, k < m.nbface → s(m'.bface k 0, m'.bface k 1) = s(m.bface k 0, m.bface k 1)) ∧
    m' = { m with bface := m'.bface } := by
  unfold correctOrientation at h
  cases hh : bfaceHosts m (esup m) with
  | throws => rw [hh] at h; cases h
  | ub => rw [hh] at h; cases h
  | ok hosts =>
    rw [hh] at h
    simp only [BC.Res.ok.injEq] at h
    obtain ⟨hlen, hk⟩ := bfaceHosts_ok hh
    have hl := orient_loop (m := m) hosts m.bface m.nbface
    simp only at hl
    have hb' : ∀ k j, m'.bface k j = if k < m.nbface ∧ j < 2 ∧
        (faceNodeI m (hostAt hosts k).1 (hostAt hosts k).2 0 ≠ m.bface k 0 ∨
         faceNodeI m (hostAt hosts k).1 (hostAt hosts k).2 1 ≠ m.bface k 1)
      then m.bface k (1 - j) else m.bface k j := fun k j => by rw [← h]; exact hl k j
    refine ⟨fun k hkn => ?_, fun k hkn => ?_, by rw [← h]⟩
    · have hok := hk k hkn
      have hok' := hok
      obtain ⟨h1, h2, h3⟩ := (C28_ok_iff hm (hb k hkn).1 (hb k hkn).2 (hostAt hosts k).1 (hostAt hosts k).2).1 hok
      have hcell : (hostAt hosts k).1 < m.nelem := ((h1 _).2 rfl).1.1
      have hb0 := hb' k 0
      have hb1 := hb' k 1
      refine ⟨_, _, hcell, h2, hok', ?_⟩
      rw [faceNodeI_zero m h2, faceNodeI_one] at hb0 hb1
      simp only [edge, Sym2.eq_iff] at h3
      rw [hb0, hb1]
      rcases h3 with ⟨ha, hc⟩ | ⟨ha, hc⟩
      · rw [← ha, ← hc]; simp
      · have hne := hm.node_ne hcell h2
        rw [← ha, ← hc]
        simp [hkn, hne]
    · rw [hb' k 0, hb' k 1]
      by_cases hc : faceNodeI m (hostAt hosts k).1 (hostAt hosts k).2 0 ≠ m.bface k 0 ∨
         faceNodeI m (hostAt hosts k).1 (hostAt hosts k).2 1 ≠ m.bface k 1
      · simp only [hkn, hc, true_and, if_true, Nat.one_lt_ofNat, Nat.ofNat_pos, Nat.sub_zero, Nat.sub_self]
        exact Sym2.eq_swap
      · simp [hc]

/-- C29: the correction is idempotent: applied again it succeeds and changes nothing. -/
theorem C29_idempotent {m m' : Mesh} (hm : Lin m) (hb : BfOk m) (h : correctOrientation m = .ok m') :
    correctOrientation m' = .ok m' := by
  obtain ⟨h1, h2, h3⟩ := C29_oriented hm hb h
  have hes : esup m' = esup m := by rw [h3]; rfl
  have hn : m'.nbface = m.nbface := by rw [h3]
  have hhost : ∀ p q, bfaceHost m' (esup m') p q = bfaceHost m (esup m) p q := by
    intro p q; rw [hes, h3]; rfl
  have hfn : ∀ i f k, faceNodeI m' i f k = faceNodeI m i f k := by intro i f k; rw [h3]; rfl
  -- the hosts are found again
  have hex : ∃ hosts, bfaceHosts m' (esup m') = .ok hosts := by
    unfold correctOrientation at h
    cases hh : bfaceHosts m (esup m) with
    | throws => rw [hh] at h; cases h
    | ub => rw [hh] at h; cases h
    | ok hosts =>
      obtain ⟨hlen, hk⟩ := bfaceHosts_ok hh
      refine ⟨hosts, (mapRes_ok _ _ _).2 ⟨by simp [hlen, hn], fun k hk1 hk2 => ?_⟩⟩
      have hkn : k < m.nbface := by rw [← hlen]; exact hk2
      rw [List.getElem_range, hhost]
      have hok := hk k hkn
      rw [hostAt_eq _ hk2] at hok
      have hs := h2 k hkn
      rw [Sym2.eq_iff] at hs
      rcases hs with ⟨ha, hc⟩ | ⟨ha, hc⟩
      · rw [ha, hc]; exact hok
      · rw [ha, hc]; exact (bfaceHost_swap hm (hb k hkn).1 (hb k hkn).2 _).1 hok
  obtain ⟨hosts, hh⟩ := hex
  obtain ⟨hlen, hk⟩ := bfaceHosts_ok hh
  unfold correctOrientation
  rw [hh]
  have hl := orient_loop (m := m') hosts m'.bface m'.nbface
  simp only at hl
  have heq : (forLt m'.nbface m'.bface fun iface b => orientBody m' iface (hostAt hosts iface) b) = m'.bface := by
    funext k j
    rw [hl k j]
    split_ifs with hc
    · exfalso
      obtain ⟨hkn, _, hc⟩ := hc
      rw [hn] at hkn
      have hok := hk k (by rw [hn]; exact hkn)
      rw [hhost] at hok
      obtain ⟨e, f, he, hf, hef, e0, e1⟩ := h1 k hkn
      have hs := h2 k hkn
      have : hostAt hosts k = (e, f) := by
        rw [Sym2.eq_iff] at hs
        rcases hs with ⟨ha, hc⟩ | ⟨ha, hc⟩
        · rw [ha, hc, hef] at hok; simpa using hok.symm
        · rw [ha, hc] at hok
          rw [(bfaceHost_swap hm (hb k hkn).1 (hb k hkn).2 _).1 hef] at hok; simpa using hok.symm
      rw [this] at hc
      rw [hfn, hfn, faceNodeI_zero m hf, faceNodeI_one, e0, e1] at hc
      simp at hc
    · rfl
  simp only [heq]

theorem exMesh_hosts : bfaceHosts exMesh (esup exMesh) = .ok [(0, 0), (1, 0), (1, 1), (0, 2), (0, 3)] := by
  decide +kernel

/-- The example mesh has a reversed boundary face (number 1); it is turned by the correction. -/
example : ∃ m', correctOrientation exMesh = .ok m' ∧ exMesh.bface 1 0 = 4 ∧ m'.bface 1 0 = 1 := by
  rw [correctOrientation, exMesh_hosts]
  exact ⟨_, rfl, rfl, by decide +kernel⟩

end Msh
end FVENS
