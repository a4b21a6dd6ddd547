import Verif.Mesh.Conform

/-!
# Partitioning: trivial partitioner (C36) and cell adjacency graph (C39)
-/

namespace FVENS
namespace Msh

/-! ### C36 -/

/-- Constructor check and `TrivialReplicatedGlobalMeshPartitioner::compute_partition`,
src/mesh/meshpartitioning.cpp:15-22, 354-367. -/
def trivialPartition (nelem nranks : ℕ) : BC.Res (ℕ → ℕ) :=
  if nelem < nranks then .throws
  else
    let q := nelem / nranks
    let d := forLt nranks (fun _ => 0) fun r d => forLt q d fun k d => upd d (r * q + k) r
    .ok (forLt (nelem - nranks * q) d fun k d => upd d (nranks * q + k) (nranks - 1))

theorem forLt_upd_range (n off v : ℕ) (d : ℕ → ℕ) (i : ℕ) :
    (forLt n d fun k d => upd d (off + k) v) i = if off ≤ i ∧ i < off + n then v else d i := by
  induction n with
  | zero => rw [forLt_zero, if_neg (by omega)]
  | succ n ih =>
    rw [forLt_succ]
    by_cases h : i = off + n
    · subst h; rw [upd_same, if_pos (by omega)]
    · rw [upd_ne _ _ h, ih]
      by_cases h' : off ≤ i ∧ i < off + n
      · rw [if_pos h', if_pos (by omega)]
      · rw [if_neg h', if_neg (by omega)]

theorem trivial_values {nelem nranks : ℕ} (hr : 0 < nranks) {d : ℕ → ℕ} (h : trivialPartition nelem nranks = .ok d)
    {i : ℕ} (hi : i < nelem) : 0 < nelem / nranks ∧ d i = min (i / (nelem / nranks)) (nranks - 1) := by
  unfold trivialPartition at h
  by_cases hlt : nelem < nranks
  · rw [if_pos hlt] at h; cases h
  rw [if_neg hlt] at h
  have hq : 0 < nelem / nranks := Nat.div_pos (by omega) hr
  refine ⟨hq, ?_⟩
  generalize nelem / nranks = q at h hq
  simp only [BC.Res.ok.injEq] at h
  subst h
  have hfirst : ∀ n, (forLt n (fun _ => 0) fun r d => forLt q d fun k d => upd d (r * q + k) r) i =
      if i < n * q then i / q else 0 := by
    intro n
    induction n with
    | zero => simp [forLt_zero]
    | succ n ih =>
      rw [forLt_succ, forLt_upd_range, ih, Nat.succ_mul]
      by_cases h1 : i < n * q
      · rw [if_neg (by omega), if_pos h1, if_pos (by omega)]
      · rw [if_neg h1]
        by_cases h2 : i < n * q + q
        · rw [if_pos (by omega), if_pos h2]
          exact (Nat.div_eq_of_lt_le (by omega) (by rw [Nat.succ_mul]; omega)).symm
        · rw [if_neg (by omega), if_neg h2]
  rw [forLt_upd_range, hfirst]
  by_cases h1 : i < nranks * q
  · rw [if_neg (by omega), if_pos h1]
    have : i / q < nranks := (Nat.div_lt_iff_lt_mul hq).2 h1
    omega
  · rw [if_pos (by omega)]
    have : nranks ≤ i / q := (Nat.le_div_iff_mul_le hq).2 (by omega)
    omega

/-- C36: construction fails exactly if there are fewer cells than ranks; otherwise every cell goes to an
existing rank, every rank gets at least one cell, and the cells of a rank are contiguous. -/
theorem C36_trivial (nelem nranks : ℕ) (hr : 0 < nranks) :
    (trivialPartition nelem nranks = .throws ↔ nelem < nranks) ∧
    (nranks ≤ nelem → ∃ d, trivialPartition nelem nranks = .ok d ∧ (∀ i, i < nelem → d i < nranks) ∧
      (∀ r, r < nranks → ∃ i, i < nelem ∧ d i = r) ∧
      ∀ i j k, i ≤ j → j ≤ k → k < nelem → d i = d k → d j = d i) := by
  refine ⟨⟨fun h => ?_, fun h => by rw [trivialPartition, if_pos h]⟩, fun hle => ?_⟩
  · by_contra hlt
    rw [trivialPartition, if_neg hlt] at h; cases h
  · obtain ⟨d, hd⟩ : ∃ d, trivialPartition nelem nranks = .ok d :=
      ⟨_, by rw [trivialPartition, if_neg (by omega)]⟩
    have hv := fun i hi => trivial_values hr hd (i := i) hi
    refine ⟨d, hd, fun i hi => ?_, fun r hrr => ?_, fun i j k hij hjk hk he => ?_⟩
    · rw [(hv i hi).2]; omega
    · have h0 := (hv 0 (by omega)).1
      have hlt : r * (nelem / nranks) < nelem :=
        calc r * (nelem / nranks) < nranks * (nelem / nranks) := Nat.mul_lt_mul_of_pos_right hrr h0
          _ ≤ nelem := Nat.mul_div_le nelem nranks
      refine ⟨r * (nelem / nranks), hlt, ?_⟩
      rw [(hv _ hlt).2, Nat.mul_div_cancel _ h0]; omega
    · rw [(hv i (by omega)).2, (hv k hk).2] at he
      rw [(hv i (by omega)).2, (hv j (by omega)).2]
      have h1 : i / (nelem / nranks) ≤ j / (nelem / nranks) := Nat.div_le_div_right hij
      have h2 : j / (nelem / nranks) ≤ k / (nelem / nranks) := Nat.div_le_div_right hjk
      omega

/-- C36: the load is balanced up to the remainder: each rank but the last gets `⌊nelem/nranks⌋` cells and the
last one the rest. -/
theorem C36_counts {nelem nranks : ℕ} (hr : 0 < nranks) {d : ℕ → ℕ} (h : trivialPartition nelem nranks = .ok d)
    {i : ℕ} (hi : i < nelem) {r : ℕ} (hrr : r < nranks) :
    d i = r ↔ r * (nelem / nranks) ≤ i ∧ (r + 1 < nranks → i < (r + 1) * (nelem / nranks)) := by
  obtain ⟨hq, hv⟩ := trivial_values hr h hi
  rw [hv, ← Nat.le_div_iff_mul_le hq, ← Nat.div_lt_iff_lt_mul hq]
  generalize i / (nelem / nranks) = t
  omega

/-- Ten cells on three ranks: 3 + 3 + 4. -/
example : ∃ d, trivialPartition 10 3 = .ok d ∧ d 2 = 0 ∧ d 3 = 1 ∧ d 9 = 2 := by
  obtain ⟨d, hd, _⟩ := (C36_trivial 10 3 (by decide)).2 (by decide)
  refine ⟨d, hd, ?_, ?_, ?_⟩ <;> rw [C36_counts (by decide) hd (by decide) (by decide)] <;> decide

/-! ### C39 -/

/-- The real neighbour of cell `i` across local face `j`: the condition
`m.gesuel(iel,j) >= 0 && m.gesuel(iel,j) < m.gnelem()`, src/mesh/meshpartitioning.cpp:387, 405. -/
def realNbr (nelem : ℕ) (e : ℕ → ℕ → Option ℕ) (i j : ℕ) : Option ℕ :=
  match e i j with
  | none => none
  | some k => if k < nelem then some k else none

/-- Number of real neighbours, src/mesh/meshpartitioning.cpp:384-390. -/
def numAdj (nelem : ℕ) (nfael : ℕ → ℕ) (e : ℕ → ℕ → Option ℕ) (i : ℕ) : ℕ :=
  forLt (nfael i) 0 fun j n => if (realNbr nelem e i j).isSome then n + 1 else n

/-- Pointers, src/mesh/meshpartitioning.cpp:379-394: counts followed by `inclusive_scan`
(src/utilities/helper_algorithms.hpp:27-33). -/
def adjPtrs (nelem : ℕ) (nfael : ℕ → ℕ) (e : ℕ → ℕ → Option ℕ) : ℕ → ℕ :=
  cumulate nelem (forLt nelem (fun _ => 0) fun i p => upd p (i + 1) (numAdj nelem nfael e i))

/-- Filling loop, src/mesh/meshpartitioning.cpp:398-413. The inner `while(iloc < ptrs[iel+1])` over `k` is run here for
all local faces, storing only while `iloc < ptrs[iel+1]`. -/
def adjStore (nelem : ℕ) (nfael : ℕ → ℕ) (e : ℕ → ℕ → Option ℕ) (ptr : ℕ → ℕ) : ℕ → ℕ :=
  forLt nelem (fun _ => 0) fun i st =>
    (forLt (nfael i) (st, ptr i) fun k (s : (ℕ → ℕ) × ℕ) =>
      if s.2 < ptr (i + 1) then
        match realNbr nelem e i k with
        | some j => (upd s.1 s.2 j, s.2 + 1)
        | none => s
      else s).1

/-- `getCellAdjLists`, src/mesh/meshpartitioning.cpp:376-430. -/
def cellAdj (nelem : ℕ) (nfael : ℕ → ℕ) (e : ℕ → ℕ → Option ℕ) : Csr :=
  ⟨adjStore nelem nfael e (adjPtrs nelem nfael e), adjPtrs nelem nfael e⟩

/-- The real neighbours of a cell in the order of its faces. -/
def nbrs (nelem : ℕ) (nfael : ℕ → ℕ) (e : ℕ → ℕ → Option ℕ) (i : ℕ) : List ℕ :=
  (List.range (nfael i)).filterMap (realNbr nelem e i)

theorem numAdj_eq (nelem : ℕ) (nfael : ℕ → ℕ) (e : ℕ → ℕ → Option ℕ) (i : ℕ) :
    numAdj nelem nfael e i = (nbrs nelem nfael e i).length := by
  unfold numAdj nbrs
  induction nfael i with
  | zero => rfl
  | succ n ih =>
    rw [forLt_succ, ih, List.range_succ, List.filterMap_append, List.length_append]
    cases h : realNbr nelem e i n <;> simp [h]

theorem adjPtrs_eq (nelem : ℕ) (nfael : ℕ → ℕ) (e : ℕ → ℕ → Option ℕ) {v : ℕ} (hv : v ≤ nelem) :
    adjPtrs nelem nfael e v = ((List.range v).flatMap (nbrs nelem nfael e)).length := by
  have hp : ∀ n, ∀ v, v ≤ n → (forLt n (fun _ => 0) fun i p => upd p (i + 1) (numAdj nelem nfael e i)) v =
      if v = 0 then 0 else (nbrs nelem nfael e (v - 1)).length := by
    intro n
    induction n with
    | zero => intro v hv; simp [forLt_zero]; omega
    | succ n ih =>
      intro v hv
      rw [forLt_succ]
      by_cases h : v = n + 1
      · subst h; rw [upd_same, numAdj_eq]; simp
      · rw [upd_ne _ _ h, ih v (by omega)]
  have key : ∀ k, k ≤ nelem → ∀ v, v ≤ nelem →
      (forLt k (forLt nelem (fun _ => 0) fun i p => upd p (i + 1) (numAdj nelem nfael e i)) fun i p => upd p (i + 1) (p (i + 1) + p i)) v
      = if v ≤ k then ((List.range v).flatMap (nbrs nelem nfael e)).length else (nbrs nelem nfael e (v - 1)).length := by
    intro k
    induction k with
    | zero =>
      intro _ v hv
      rw [forLt_zero, hp nelem v hv]
      by_cases h : v = 0
      · subst h; simp
      · rw [if_neg h, if_neg (by omega)]
    | succ k ih =>
      intro hk v hv
      rw [forLt_succ]
      by_cases h : v = k + 1
      · subst h
        rw [upd_same, ih (by omega) _ hv, ih (by omega) k (by omega), if_neg (by omega), if_pos le_rfl, if_pos le_rfl,
          List.range_succ, List.flatMap_append, List.length_append]
        simp; omega
      · rw [upd_ne _ _ h, ih (by omega) v hv]
        by_cases h2 : v ≤ k
        · rw [if_pos h2, if_pos (by omega)]
        · rw [if_neg h2, if_neg (by omega)]
  unfold adjPtrs cumulate
  rw [key nelem le_rfl v hv, if_pos hv]

/-- An array begins with the entries of a list. -/
def Holds {α : Type*} (st : ℕ → α) (l : List α) : Prop := ∀ t (h : t < l.length), st t = l[t]

theorem Holds.push {α : Type*} {st : ℕ → α} {l : List α} (h : Holds st l) (v : α) : Holds (upd st l.length v) (l ++ [v]) := by
  intro t ht
  by_cases hl : t = l.length
  · subst hl; simp
  · rw [List.length_append, List.length_singleton] at ht
    rw [upd_ne _ _ hl, List.getElem_append_left (by omega)]
    exact h t _

theorem adjStore_eq (nelem : ℕ) (nfael : ℕ → ℕ) (e : ℕ → ℕ → Option ℕ) :
    Holds (adjStore nelem nfael e (adjPtrs nelem nfael e)) ((List.range nelem).flatMap (nbrs nelem nfael e)) := by
  have key : ∀ n, n ≤ nelem → Holds (forLt n (fun _ => 0) fun i st =>
    (forLt (nfael i) (st, adjPtrs nelem nfael e i) fun k (s : (ℕ → ℕ) × ℕ) =>
      if s.2 < adjPtrs nelem nfael e (i + 1) then
        match realNbr nelem e i k with
        | some j => (upd s.1 s.2 j, s.2 + 1)
        | none => s
      else s).1) ((List.range n).flatMap (nbrs nelem nfael e)) := by
    intro n
    induction n with
    | zero => intro _ t ht; simp at ht
    | succ n ih =>
      intro hn
      have ih := ih (by omega)
      rw [forLt_succ]
      generalize (forLt n (fun _ => 0) _ : ℕ → ℕ) = st at ih
      set base := (List.range n).flatMap (nbrs nelem nfael e) with hbase
      have hp1 : adjPtrs nelem nfael e n = base.length := adjPtrs_eq nelem nfael e (by omega)
      have hp2 : adjPtrs nelem nfael e (n + 1) = base.length + (nbrs nelem nfael e n).length := by
        rw [adjPtrs_eq nelem nfael e hn, List.range_succ, List.flatMap_append, List.length_append]
        simp [hbase]
      rw [hp1, hp2]
      have inner : ∀ k, k ≤ nfael n →
          let s : (ℕ → ℕ) × ℕ := forLt k (st, base.length) fun k s =>
            if s.2 < base.length + (nbrs nelem nfael e n).length then
              match realNbr nelem e n k with
              | some j => (upd s.1 s.2 j, s.2 + 1)
              | none => s
            else s
          Holds s.1 (base ++ (List.range k).filterMap (realNbr nelem e n)) ∧
          s.2 = (base ++ (List.range k).filterMap (realNbr nelem e n)).length := by
        intro k
        induction k with
        | zero => intro _; simpa [forLt_zero] using ih
        | succ k ihk =>
          intro hk
          obtain ⟨h1, h2⟩ := ihk (by omega)
          simp only [forLt_succ]
          generalize (forLt k (st, base.length) _ : (ℕ → ℕ) × ℕ) = s at h1 h2
          have hr : (List.range (k + 1)).filterMap (realNbr nelem e n) =
              (List.range k).filterMap (realNbr nelem e n) ++ (realNbr nelem e n k).toList := by
            rw [List.range_succ, List.filterMap_append]
            cases h : realNbr nelem e n k <;> simp [h]
          rw [hr]
          cases h : realNbr nelem e n k with
          | none => simp only [ite_self, Option.toList_none, List.append_nil]; exact ⟨h1, h2⟩
          | some j =>
            have hlt : s.2 < base.length + (nbrs nelem nfael e n).length := by
              rw [h2, List.length_append]
              have hsub : ((List.range (k + 1)).filterMap (realNbr nelem e n)).length ≤ (nbrs nelem nfael e n).length := by
                unfold nbrs
                refine List.Sublist.length_le (List.Sublist.filterMap _ (List.range_sublist.2 hk))
              rw [hr, h] at hsub
              simp at hsub
              omega
            rw [if_pos hlt]
            simp only [Option.toList_some, ← List.append_assoc]
            rw [h2]
            exact ⟨h1.push j, by simp [Nat.add_assoc]⟩
      have := (inner (nfael n) le_rfl).1
      rw [List.range_succ, List.flatMap_append]
      simpa [nbrs] using this
  exact key nelem le_rfl

/-- C39: the list stored for each cell is its real neighbours in the order of its faces; offsets start at zero
and grow by the number of neighbours. -/
theorem C39_lists (nelem : ℕ) (nfael : ℕ → ℕ) (e : ℕ → ℕ → Option ℕ) :
    (∀ i, i < nelem → (cellAdj nelem nfael e).list i = nbrs nelem nfael e i) ∧
    (cellAdj nelem nfael e).ptr 0 = 0 ∧
    ∀ i, i < nelem → (cellAdj nelem nfael e).ptr (i + 1) = (cellAdj nelem nfael e).ptr i + (nbrs nelem nfael e i).length := by
  have hst := adjStore_eq nelem nfael e
  have hp : ∀ v, v ≤ nelem → (cellAdj nelem nfael e).ptr v = ((List.range v).flatMap (nbrs nelem nfael e)).length :=
    fun v hv => adjPtrs_eq nelem nfael e hv
  have hstep : ∀ i, i < nelem → (cellAdj nelem nfael e).ptr (i + 1) = (cellAdj nelem nfael e).ptr i + (nbrs nelem nfael e i).length := by
    intro i hi
    rw [hp (i + 1) hi, hp i hi.le, List.range_succ, List.flatMap_append, List.length_append]; simp
  refine ⟨fun i hi => ?_, by rw [hp 0 (by omega)]; simp, hstep⟩
  unfold Csr.list
  rw [hstep i hi, Nat.add_sub_cancel_left]
  apply List.ext_getElem
  · simp
  · intro k h1 h2
    simp only [List.getElem_map, List.getElem_range]
    show adjStore nelem nfael e (adjPtrs nelem nfael e) _ = _
    have hr : List.range nelem = List.range i ++ ([i] ++ (List.range (nelem - (i + 1))).map (i + 1 + ·)) := by
      rw [← List.append_assoc, ← List.range_succ, ← List.range_add]
      congr 1; omega
    have hlt : ((List.range i).flatMap (nbrs nelem nfael e)).length + k < ((List.range nelem).flatMap (nbrs nelem nfael e)).length := by
      rw [hr, List.flatMap_append, List.flatMap_append, List.length_append, List.length_append]
      simp; omega
    rw [hp i hi.le, hst _ hlt]
    simp only [hr, List.flatMap_append, List.flatMap_cons, List.flatMap_nil, List.append_nil]
    rw [List.getElem_append_right (by omega), List.getElem_append_left (by omega)]
    simp

/-- After pre-processing, the real neighbour across a local face is the cell glued there. -/
theorem realNbr_topological {m : Mesh} (hc : Conforming m) {s : FState} (h : topological m = .ok s) (x : ℕ × ℕ)
    (j : ℕ) : realNbr m.nelem s.esuel x.1 x.2 = some j ↔ ∃ g, Glued m x (j, g) := by
  have hm := hc.lin
  obtain ⟨hosts, hh, hes, -⟩ := faceConnectivity_eq m h
  obtain ⟨_, hok⟩ := bfaceHosts_ok hh
  have hC := forLt_upd2 (n := m.nconnface) (connKey m) (fun ic => m.nelem + ic)
    (esuelB m hosts (esuel m (esup m))) x
  have hB := forLt_upd2 (n := m.nbface) (fun k => hostAt hosts k) (fun k => m.nelem + m.nconnface + k)
    (esuel m (esup m)) x
  have hes' : s.esuel x.1 x.2 = (forLt m.nconnface (esuelB m hosts (esuel m (esup m))) fun ic e =>
    upd2 e (connKey m ic).1 (connKey m ic).2 (some (m.nelem + ic))) x.1 x.2 := by rw [hes]; rfl
  unfold realNbr
  rw [hes']
  by_cases h1 : ∃ ic, ic < m.nconnface ∧ connKey m ic = x
  · obtain ⟨ic, hic, hk, hval⟩ := hC.2 h1
    rw [hval]
    simp only [show ¬ (m.nelem + ic < m.nelem) by omega, if_false, reduceCtorEq, false_iff]
    rintro ⟨g, hg⟩
    exact hc.cfNotGlued ic hic (j, g) (by rw [hk]; exact hg)
  · rw [hC.1 (fun ic hic hk => h1 ⟨ic, hic, hk⟩)]
    by_cases h2 : ∃ k, k < m.nbface ∧ hostAt hosts k = x
    · obtain ⟨k, hk, hkx, hval⟩ := hB.2 h2
      have hval' : esuelB m hosts (esuel m (esup m)) x.1 x.2 = some (m.nelem + m.nconnface + k) := hval
      rw [hval']
      simp only [show ¬ (m.nelem + m.nconnface + k < m.nelem) by omega, if_false, reduceCtorEq, false_iff]
      rintro ⟨g, hg⟩
      exact host_not_glued hm (hc.bfOk k hk).1 (hc.bfOk k hk).2 (hok k hk) (j, g) (by rw [hkx]; exact hg)
    · have hval : esuelB m hosts (esuel m (esup m)) x.1 x.2 = esuel m (esup m) x.1 x.2 :=
        hB.1 (fun k hk hkx => h2 ⟨k, hk, hkx⟩)
      have hC26 := fun j => C26_adjacency_exact hm hc.manifold x.1 x.2 j
      rw [hval]
      constructor
      · intro hr
        cases he : esuel m (esup m) x.1 x.2 with
        | none => rw [he] at hr; cases hr
        | some k =>
          rw [he] at hr
          simp only at hr
          split_ifs at hr with hlt
          rw [Option.some.injEq] at hr
          exact (hC26 j).1 (by rw [he, hr])
      · rintro ⟨g, hg⟩
        rw [(hC26 j).2 ⟨g, hg⟩]
        simp [hg.2.1.1]

/-- C39: for conforming meshes after pre-processing, the stored graph lists for each cell exactly the cells it
shares a face with; it is symmetric and has no loops. -/
theorem C39_graph {m : Mesh} (hc : Conforming m) {s : FState} (h : topological m = .ok s) {i : ℕ} (hi : i < m.nelem) :
    (∀ j, j ∈ (cellAdj m.nelem m.nfael s.esuel).list i ↔ ∃ f g, Glued m (i, f) (j, g)) ∧
    (∀ j, j < m.nelem → (j ∈ (cellAdj m.nelem m.nfael s.esuel).list i ↔ i ∈ (cellAdj m.nelem m.nfael s.esuel).list j)) ∧
    i ∉ (cellAdj m.nelem m.nfael s.esuel).list i := by
  have hm := hc.lin
  have hlist : ∀ i j, i < m.nelem → (j ∈ (cellAdj m.nelem m.nfael s.esuel).list i ↔ ∃ f g, Glued m (i, f) (j, g)) := by
    intro i j hi
    rw [(C39_lists m.nelem m.nfael s.esuel).1 i hi]
    simp only [nbrs, List.mem_filterMap, List.mem_range]
    constructor
    · rintro ⟨f, _, hr⟩
      exact ⟨f, (realNbr_topological hc h (i, f) j).1 hr⟩
    · rintro ⟨f, g, hg⟩
      exact ⟨f, by rw [hm.nf i hi]; exact hg.1.2, (realNbr_topological hc h (i, f) j).2 ⟨g, hg⟩⟩
  refine ⟨fun j => hlist i j hi, fun j hj => ?_, ?_⟩
  · rw [hlist i j hi, hlist j i hj]
    exact ⟨fun ⟨f, g, hg⟩ => ⟨g, f, hg.symm⟩, fun ⟨f, g, hg⟩ => ⟨g, f, hg.symm⟩⟩
  · rw [hlist i i hi]
    rintro ⟨f, g, hg⟩
    exact hg.2.2.1 rfl

/-- `exPart` (three cells, one interface face) meets the hypotheses. -/
example : ∃ s, topological exPart = .ok s ∧ 1 ∈ (cellAdj exPart.nelem exPart.nfael s.esuel).list 0 ∧
    0 ∉ (cellAdj exPart.nelem exPart.nfael s.esuel).list 0 := by
  obtain ⟨s, hs, _⟩ := exPart_topological
  refine ⟨s, hs, ?_, (C39_graph exPart_conforming hs (by decide)).2.2⟩
  rw [(C39_graph exPart_conforming hs (by decide)).1]
  exact ⟨1, 2, ⟨by show 0 < 2; decide, by show 1 < 4; decide⟩, ⟨by show 1 < 2; decide, by show 2 < 3; decide⟩,
    by decide, Sym2.eq_swap⟩

end Msh
end FVENS
