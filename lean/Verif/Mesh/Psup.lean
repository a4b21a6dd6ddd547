import Verif.Mesh.Geom

/-!
# Points surrounding points (C33)
-/

namespace FVENS
namespace Msh

/-- Local number of point `ip` in a cell: the last match, src/mesh/mesh.cpp:802-805; `none` for -1. -/
def localNode (m : Mesh) (ie ip : ℕ) : Option ℕ :=
  forLt (m.nnode ie) none fun j s => if m.inpoel ie j = ip then some j else s

/-- The flags `nbd`, src/mesh/mesh.cpp:813-829: whether local node `j` is connected to `ip`. (With `inode` -1,
which cannot occur for cells of the point's list, the model has no connection.) -/
def nbd (m : Mesh) (ie ip j : ℕ) : Bool :=
  if m.nnode ie = 3 then true
  else if m.nnode ie = 4 then
    match localNode m ie ip with
    | some i => decide (j = (i + 1) % m.nnode ie) || decide (j = (i + m.nnode ie - 1) % m.nnode ie)
    | none => false
  else false

/-- The loops over the cells around `ip` and their nodes common to both passes, src/mesh/mesh.cpp:797-845 and
858-903: `step q` is executed for each connected node `q`. -/
def psupLoop {σ : Type} (m : Mesh) (ip : ℕ) (step : ℕ → σ → σ) (s : σ) : σ :=
  ((esup m).list ip).foldl (fun s ie =>
    forLt (m.nnode ie) s fun j s => if nbd m ie ip j then step (m.inpoel ie j) s else s) s

/-- First pass: marks, number of entries so far, and pointers, src/mesh/mesh.cpp:790-847. -/
structure Pass1 where
  lpoin : ℕ → Option ℕ
  istor : ℕ
  ptr : ℕ → ℕ

/-- First pass, src/mesh/mesh.cpp:790-847. -/
def psupPass1 (m : Mesh) : Pass1 :=
  forLt m.npoin ⟨fun _ => none, 0, fun _ => 0⟩ fun ip s =>
    let s1 := psupLoop m ip (fun q (t : (ℕ → Option ℕ) × ℕ) =>
      if t.1 q ≠ some ip then (upd t.1 q (some ip), t.2 + 1) else t) (upd s.lpoin ip (some ip), s.istor)
    ⟨s1.1, s1.2, upd s.ptr (ip + 1) s1.2⟩

/-- Second pass: marks and the entries stored so far (written to consecutive positions), src/mesh/mesh.cpp:851-903. -/
def psupPass2 (m : Mesh) : (ℕ → Option ℕ) × List ℕ :=
  forLt m.npoin (fun _ => none, []) fun ip s =>
    psupLoop m ip (fun q (t : (ℕ → Option ℕ) × List ℕ) =>
      if t.1 q ≠ some ip then (upd t.1 q (some ip), t.2 ++ [q]) else t) (upd s.1 ip (some ip), s.2)

/-- The stored list of a point, `psup[psup_p(p) .. psup_p(p+1)-1]`. -/
def psupList (m : Mesh) (p : ℕ) : List ℕ :=
  ((psupPass2 m).2.drop ((psupPass1 m).ptr p)).take ((psupPass1 m).ptr (p + 1) - (psupPass1 m).ptr p)

/-! ### Proof -/

/-- The connected nodes in the order of the loops. -/
def cand (m : Mesh) (ip : ℕ) : List ℕ :=
  ((esup m).list ip).flatMap fun ie => ((List.range (m.nnode ie)).filter fun j => nbd m ie ip j).map (m.inpoel ie)

theorem psupLoop_eq {σ : Type} (m : Mesh) (ip : ℕ) (step : ℕ → σ → σ) (s : σ) :
    psupLoop m ip step s = (cand m ip).foldl (fun s q => step q s) s := by
  unfold psupLoop cand
  rw [List.foldl_flatMap]
  congr 1
  funext s ie
  rw [List.foldl_map, List.foldl_filter]
  rfl

/-- One round of the second pass over candidates `cs`. -/
theorem round2 (ip : ℕ) (cs : List ℕ) (lp : ℕ → Option ℕ) (out : List ℕ)
    (h0 : ∀ q, lp q = some ip ↔ q = ip) :
    ∃ L, (cs.foldl (fun (t : (ℕ → Option ℕ) × List ℕ) q =>
        if t.1 q ≠ some ip then (upd t.1 q (some ip), t.2 ++ [q]) else t) (lp, out)).2 = out ++ L ∧
      L.Nodup ∧ (∀ q, q ∈ L ↔ q ∈ cs ∧ q ≠ ip) ∧
      (∀ q, (cs.foldl (fun (t : (ℕ → Option ℕ) × List ℕ) q =>
        if t.1 q ≠ some ip then (upd t.1 q (some ip), t.2 ++ [q]) else t) (lp, out)).1 q =
        if q ∈ cs then some ip else lp q) := by
  induction cs using List.reverseRecOn with
  | nil => exact ⟨[], by simp, by simp, by simp, by simp⟩
  | append_singleton cs c ih =>
    obtain ⟨L, h1, h2, h3, h4⟩ := ih
    rw [List.foldl_append]
    generalize (cs.foldl _ (lp, out) : (ℕ → Option ℕ) × List ℕ) = t at h1 h4
    simp only [List.foldl_cons, List.foldl_nil]
    have hmark : t.1 c = some ip ↔ (c ∈ cs ∨ c = ip) := by
      rw [h4]
      by_cases hc : c ∈ cs
      · simp [hc]
      · simp [hc, h0]
    by_cases hm : t.1 c = some ip
    · rw [if_neg (by simpa using hm)]
      refine ⟨L, h1, h2, fun q => ?_, fun q => ?_⟩
      · rw [h3]
        simp only [List.mem_append, List.mem_singleton]
        constructor
        · rintro ⟨a, b⟩; exact ⟨Or.inl a, b⟩
        · rintro ⟨a | rfl, b⟩
          · exact ⟨a, b⟩
          · exact ⟨(hmark.1 hm).resolve_right b, b⟩
      · rw [h4]
        by_cases hq : q = c
        · subst hq
          have := h4 q
          rw [hm] at this
          simp only [List.mem_append, List.mem_singleton, or_true, if_true]
          exact this.symm
        · simp [hq]
    · rw [if_pos (by simpa using hm)]
      have hn : c ∉ cs ∧ c ≠ ip := by rw [hmark] at hm; push Not at hm; exact hm
      refine ⟨L ++ [c], by simp [h1], ?_, fun q => ?_, fun q => ?_⟩
      · rw [List.nodup_append]
        refine ⟨h2, by simp, ?_⟩
        intro a ha b hb
        rw [List.mem_singleton] at hb
        subst hb
        rintro rfl
        exact hn.1 ((h3 a).1 ha).1
      · simp only [List.mem_append, List.mem_singleton, h3]
        constructor
        · rintro (⟨a, b⟩ | rfl)
          · exact ⟨Or.inl a, b⟩
          · exact ⟨Or.inr rfl, hn.2⟩
        · rintro ⟨a | rfl, b⟩
          · exact Or.inl ⟨a, b⟩
          · exact Or.inr rfl
      · by_cases hq : q = c
        · subst hq; simp [upd_same]
        · simp [upd_ne _ _ hq, h4, hq]

/-- The first pass counts what the second stores. -/
theorem round1 (ip : ℕ) (cs : List ℕ) (lp : ℕ → Option ℕ) (out : List ℕ) :
    cs.foldl (fun (t : (ℕ → Option ℕ) × ℕ) q =>
        if t.1 q ≠ some ip then (upd t.1 q (some ip), t.2 + 1) else t) (lp, out.length) =
      ((cs.foldl (fun (t : (ℕ → Option ℕ) × List ℕ) q =>
        if t.1 q ≠ some ip then (upd t.1 q (some ip), t.2 ++ [q]) else t) (lp, out)).1,
       (cs.foldl (fun (t : (ℕ → Option ℕ) × List ℕ) q =>
        if t.1 q ≠ some ip then (upd t.1 q (some ip), t.2 ++ [q]) else t) (lp, out)).2.length) := by
  induction cs using List.reverseRecOn with
  | nil => rfl
  | append_singleton cs c ih =>
    rw [List.foldl_append, List.foldl_append, ih]
    simp only [List.foldl_cons, List.foldl_nil]
    split_ifs <;> simp

theorem psup_spec (m : Mesh) : ∃ L : ℕ → List ℕ,
    (∀ p, p < m.npoin → (L p).Nodup ∧ ∀ q, q ∈ L p ↔ q ∈ cand m p ∧ q ≠ p) ∧
    (psupPass2 m).2 = (List.range m.npoin).flatMap L ∧
    (∀ p, p ≤ m.npoin → (psupPass1 m).ptr p = ((List.range p).flatMap L).length) := by
  have key : ∀ n, ∃ L : ℕ → List ℕ,
      let s1 : Pass1 := forLt n ⟨fun _ => none, 0, fun _ => 0⟩ fun ip s =>
        let s1 := psupLoop m ip (fun q (t : (ℕ → Option ℕ) × ℕ) =>
          if t.1 q ≠ some ip then (upd t.1 q (some ip), t.2 + 1) else t) (upd s.lpoin ip (some ip), s.istor)
        ⟨s1.1, s1.2, upd s.ptr (ip + 1) s1.2⟩
      let s2 : (ℕ → Option ℕ) × List ℕ := forLt n (fun _ => none, []) fun ip s =>
        psupLoop m ip (fun q (t : (ℕ → Option ℕ) × List ℕ) =>
          if t.1 q ≠ some ip then (upd t.1 q (some ip), t.2 ++ [q]) else t) (upd s.1 ip (some ip), s.2)
      (∀ p, p < n → (L p).Nodup ∧ ∀ q, q ∈ L p ↔ q ∈ cand m p ∧ q ≠ p) ∧
      s2.2 = (List.range n).flatMap L ∧ s1.lpoin = s2.1 ∧ s1.istor = s2.2.length ∧
      (∀ q k, s2.1 q = some k → k < n) ∧
      (∀ p, p ≤ n → s1.ptr p = ((List.range p).flatMap L).length) := by
    intro n
    induction n with
    | zero =>
      refine ⟨fun _ => [], fun p hp => by omega, by simp [forLt_zero], rfl, rfl, fun q k h => ?_, fun p hp => by simp [forLt_zero]⟩
      simp [forLt_zero] at h
    | succ n ih =>
      obtain ⟨L, h1, h2, h3, h4, h5, h6⟩ := ih
      simp only [forLt_succ]
      generalize (forLt n (⟨fun _ => none, 0, fun _ => 0⟩ : Pass1) _ : Pass1) = s1 at h3 h4 h6
      generalize (forLt n ((fun _ => none, []) : (ℕ → Option ℕ) × List ℕ) _ : (ℕ → Option ℕ) × List ℕ) = s2 at h2 h3 h4 h5
      have hmark : ∀ q, (upd s2.1 n (some n)) q = some n ↔ q = n := by
        intro q
        by_cases hq : q = n
        · subst hq; simp [upd_same]
        · rw [upd_ne _ _ hq]
          exact ⟨fun h => absurd (h5 q n h) (lt_irrefl _), fun h => absurd h hq⟩
      obtain ⟨N, n1, n2, n3, n4⟩ := round2 n (cand m n) (upd s2.1 n (some n)) s2.2 hmark
      have r1 := round1 n (cand m n) (upd s2.1 n (some n)) s2.2
      simp only [psupLoop_eq, h3, h4, r1]
      have hL : ∀ k, k ≤ n → (List.range k).flatMap (upd L n N) = (List.range k).flatMap L := by
        intro k hk
        rw [List.flatMap_def, List.flatMap_def]
        congr 1
        apply List.map_congr_left
        intro a ha
        rw [upd_ne _ _ (by rw [List.mem_range] at ha; omega)]
      have hL1 : (List.range (n + 1)).flatMap (upd L n N) = s2.2 ++ N := by
        rw [List.range_succ, List.flatMap_append, hL n le_rfl, ← h2]
        simp [upd_same]
      refine ⟨upd L n N, fun p hp => ?_, ?_, trivial, trivial, fun q k h => ?_, fun p hp => ?_⟩
      · by_cases hpn : p = n
        · subst hpn; rw [upd_same]; exact ⟨n2, n3⟩
        · rw [upd_ne _ _ hpn]; exact h1 p (by omega)
      · rw [n1, hL1]
      · rw [n4] at h
        by_cases hq : q ∈ cand m n
        · rw [if_pos hq] at h; have := Option.some.inj h; omega
        · rw [if_neg hq] at h
          by_cases hqn : q = n
          · subst hqn; rw [upd_same] at h; have := Option.some.inj h; omega
          · rw [upd_ne _ _ hqn] at h; have := h5 q k h; omega
      · by_cases hpn : p = n + 1
        · subst hpn; rw [upd_same, hL1, n1]
        · rw [upd_ne _ _ hpn, hL p (by omega)]; exact h6 p (by omega)
  obtain ⟨L, h1, h2, _, _, _, h6⟩ := key m.npoin
  exact ⟨L, h1, h2, h6⟩

theorem psupList_spec (m : Mesh) {p : ℕ} (hp : p < m.npoin) :
    (psupList m p).Nodup ∧ ∀ q, q ∈ psupList m p ↔ q ∈ cand m p ∧ q ≠ p := by
  obtain ⟨L, h1, h2, h3⟩ := psup_spec m
  have : psupList m p = L p := by
    unfold psupList
    rw [h2, h3 p hp.le, h3 (p + 1) hp]
    have hr : List.range m.npoin = List.range p ++ ([p] ++ (List.range (m.npoin - (p + 1))).map (p + 1 + ·)) := by
      rw [← List.append_assoc, ← List.range_succ, ← List.range_add]
      congr 1; omega
    rw [hr, List.flatMap_append, List.drop_left, List.flatMap_append, List.range_succ, List.flatMap_append]
    simp
  rw [this]
  exact h1 p hp

theorem localNode_eq {m : Mesh} (hm : Lin m) {i k : ℕ} (hi : i < m.nelem) (hk : k < m.nnode i) :
    localNode m i (m.inpoel i k) = some k := by
  have : ∀ n, n ≤ m.nnode i → forLt n none (fun j s => if m.inpoel i j = m.inpoel i k then some j else s) =
      if k < n then some k else none := by
    intro n
    induction n with
    | zero => intro _; simp [forLt_zero]
    | succ n ih =>
      intro hn
      rw [forLt_succ, ih (by omega)]
      by_cases h : m.inpoel i n = m.inpoel i k
      · obtain rfl := hm.inj i hi n k (by omega) hk h
        simp
      · have : n ≠ k := by rintro rfl; exact h rfl
        rw [if_neg h]
        by_cases hkn : k < n
        · simp [hkn, Nat.lt_succ_of_lt hkn]
        · simp [hkn]; omega
  unfold localNode
  rw [this _ le_rfl, if_pos hk]

/-- C33: on meshes of triangles and quadrilaterals, the stored list of each point has no repetitions and
contains exactly the points joined to it by an edge of a cell. -/
theorem C33_exact {m : Mesh} (hm : Lin m) (h34 : ∀ i, i < m.nelem → m.nnode i = 3 ∨ m.nnode i = 4) {p : ℕ}
    (hp : p < m.npoin) : (psupList m p).Nodup ∧
      ∀ q, q ∈ psupList m p ↔ ∃ x, IsFace m x ∧ edge m x = s(p, q) := by
  obtain ⟨hn, hmem⟩ := psupList_spec m hp
  refine ⟨hn, fun q => ?_⟩
  have hno : NodesOk m := fun i hi j hj => hm.lt i hi j (by rw [← hm.nf i hi]; exact hj)
  rw [hmem]
  unfold cand
  simp only [List.mem_flatMap, List.mem_map, List.mem_filter, List.mem_range, C25_membership hno hp]
  constructor
  · rintro ⟨⟨i, ⟨hi, k, hk, hkp⟩, j, ⟨hj, hb⟩, hjq⟩, hne⟩
    rw [hm.nf i hi] at hk
    have hjk : j ≠ k := by rintro rfl; exact hne (by rw [← hjq, hkp])
    have hcase : j = (k + 1) % m.nnode i ∨ k = (j + 1) % m.nnode i := by
      rcases h34 i hi with h3 | h4
      · rw [h3] at hj hk ⊢; omega
      · unfold nbd at hb
        rw [if_neg (by omega), if_pos h4, ← hkp, localNode_eq hm hi hk] at hb
        simp only [Bool.or_eq_true, decide_eq_true_eq] at hb
        rw [h4] at hj hk hb ⊢; omega
    rcases hcase with h | h
    · refine ⟨(i, k), ⟨hi, hk⟩, ?_⟩
      simp only [edge, ← h, hkp, hjq]
    · refine ⟨(i, j), ⟨hi, hj⟩, ?_⟩
      simp only [edge, ← h, hkp, hjq]
      exact Sym2.eq_swap
  · rintro ⟨⟨i, f⟩, ⟨hi, hf⟩, he⟩
    simp only at hi hf
    have h3 := hm.three i hi
    have hs : (f + 1) % m.nnode i < m.nnode i := Nat.mod_lt _ (by omega)
    have hfs : f ≠ (f + 1) % m.nnode i := by
      rcases h34 i hi with h | h <;> rw [h] at hf ⊢ <;> omega
    -- both orientations of the edge
    have go : ∀ k j, k < m.nnode i → j < m.nnode i → k ≠ j → (j = (k + 1) % m.nnode i ∨ k = (j + 1) % m.nnode i) →
        m.inpoel i k = p → m.inpoel i j = q →
        (∃ a, (a < m.nelem ∧ ∃ j, j < m.nfael a ∧ m.inpoel a j = p) ∧
          ∃ b, (b < m.nnode a ∧ nbd m a p b = true) ∧ m.inpoel a b = q) ∧ q ≠ p := by
      intro k j hk hj hkj hc hkp hjq
      refine ⟨⟨i, ⟨hi, k, by rw [hm.nf i hi]; exact hk, hkp⟩, j, ⟨hj, ?_⟩, hjq⟩, ?_⟩
      · unfold nbd
        rcases h34 i hi with h | h
        · rw [if_pos h]
        · rw [if_neg (by omega), if_pos h, ← hkp, localNode_eq hm hi hk]
          simp only [Bool.or_eq_true, decide_eq_true_eq]
          rw [h] at hk hj hc ⊢; omega
      · intro h
        exact hkj (hm.inj i hi k j hk hj (by rw [hkp, hjq, h]))
    simp only [edge, Sym2.eq_iff] at he
    rcases he with ⟨h1, h2⟩ | ⟨h1, h2⟩
    · exact go f _ hf hs hfs (Or.inl rfl) h1 h2
    · exact go _ f hs hf hfs.symm (Or.inr rfl) h2 h1

/-- C33: the relation is symmetric. -/
theorem C33_symmetric {m : Mesh} (hm : Lin m) (h34 : ∀ i, i < m.nelem → m.nnode i = 3 ∨ m.nnode i = 4) {p q : ℕ}
    (hp : p < m.npoin) (hq : q < m.npoin) : q ∈ psupList m p ↔ p ∈ psupList m q := by
  rw [(C33_exact hm h34 hp).2, (C33_exact hm h34 hq).2, Sym2.eq_swap]

/-- C33: the pointer array starts at zero and is monotone up to the size of the list. -/
theorem C33_layout (m : Mesh) : (psupPass1 m).ptr 0 = 0 ∧
    (∀ p, p < m.npoin → (psupPass1 m).ptr (p + 1) = (psupPass1 m).ptr p + (psupList m p).length) ∧
    (psupPass1 m).ptr m.npoin = (psupPass2 m).2.length := by
  obtain ⟨L, h1, h2, h3⟩ := psup_spec m
  refine ⟨by rw [h3 0 (by omega)]; simp, fun p hp => ?_, by rw [h3 _ le_rfl, h2]⟩
  have hle : (psupPass1 m).ptr (p + 1) ≤ (psupPass2 m).2.length := by
    rw [h3 (p + 1) hp, h2, show List.range m.npoin = List.range (p + 1) ++ (List.range (m.npoin - (p + 1))).map (p + 1 + ·) from by
      rw [← List.range_add]; congr 1; omega, List.flatMap_append, List.length_append]
    omega
  have hmono : (psupPass1 m).ptr p ≤ (psupPass1 m).ptr (p + 1) := by
    rw [h3 p hp.le, h3 (p + 1) hp, List.range_succ, List.flatMap_append, List.length_append]; omega
  unfold psupList
  rw [List.length_take, List.length_drop]
  omega

/-- In the hybrid example mesh (a square and a triangle) the hypotheses hold; the diagonal of the square is not
an edge. -/
example : psupList exMesh 0 = [1, 3] ∧ Lin exMesh ∧ (∀ i, i < exMesh.nelem → exMesh.nnode i = 3 ∨ exMesh.nnode i = 4) := by
  refine ⟨by decide +kernel, exMesh_lin, fun i hi => ?_⟩
  have hi : i < 2 := hi
  rcases (show i = 0 ∨ i = 1 by omega) with rfl | rfl
  · exact Or.inr rfl
  · exact Or.inl rfl

end Msh
end FVENS
