import Verif.Mesh.Esup
import Mathlib.Data.Sym.Sym2

/-!
# Cell adjacency (C26)
-/

namespace FVENS
namespace Msh

/-! ### Well-formed linear meshes (specification level) -/

/-- A linear 2D mesh as produced by the readers: as many faces as vertices, at least three, vertices
in range and distinct within a cell. -/
structure Lin (m : Mesh) : Prop where
  nf : ∀ i, i < m.nelem → m.nfael i = m.nnode i
  three : ∀ i, i < m.nelem → 3 ≤ m.nnode i
  lt : ∀ i, i < m.nelem → ∀ j, j < m.nnode i → m.inpoel i j < m.npoin
  inj : ∀ i, i < m.nelem → ∀ j k, j < m.nnode i → k < m.nnode i → m.inpoel i j = m.inpoel i k → j = k

/-- `(i, f)` is a local face of a cell. -/
def IsFace (m : Mesh) (x : ℕ × ℕ) : Prop := x.1 < m.nelem ∧ x.2 < m.nnode x.1

/-- The edge (unordered pair of vertices) of local face `f` of cell `i`: vertex `f` and its successor. -/
def edge (m : Mesh) (x : ℕ × ℕ) : Sym2 ℕ :=
  s(m.inpoel x.1 x.2, m.inpoel x.1 ((x.2 + 1) % m.nnode x.1))

/-- Two local faces of different cells coincide. -/
def Glued (m : Mesh) (x y : ℕ × ℕ) : Prop := IsFace m x ∧ IsFace m y ∧ x.1 ≠ y.1 ∧ edge m x = edge m y

/-- At most two cells meet at an edge. -/
def Manifold (m : Mesh) : Prop := ∀ x y z, Glued m x y → Glued m x z → y = z

theorem Glued.symm {m : Mesh} {x y : ℕ × ℕ} (h : Glued m x y) : Glued m y x :=
  ⟨h.2.1, h.1, h.2.2.1.symm, h.2.2.2.symm⟩

theorem Lin.nodesOk {m : Mesh} (h : Lin m) : NodesOk m := fun i hi j hj =>
  h.lt i hi j (by rw [← h.nf i hi]; exact hj)

theorem Lin.next_lt {m : Mesh} (h : Lin m) {i : ℕ} (hi : i < m.nelem) (f : ℕ) :
    (f + 1) % m.nnode i < m.nnode i := Nat.mod_lt _ (by have := h.three i hi; omega)

theorem Lin.next_ne {m : Mesh} (h : Lin m) {i f : ℕ} (hi : i < m.nelem) (hf : f < m.nnode i) :
    (f + 1) % m.nnode i ≠ f := by
  have := h.three i hi
  by_cases h1 : f + 1 < m.nnode i
  · rw [Nat.mod_eq_of_lt h1]; omega
  · have : f + 1 = m.nnode i := by omega
    rw [this, Nat.mod_self]; omega

theorem Lin.node_ne {m : Mesh} (h : Lin m) {i f : ℕ} (hi : i < m.nelem) (hf : f < m.nnode i) :
    m.inpoel i f ≠ m.inpoel i ((f + 1) % m.nnode i) := fun e =>
  h.next_ne hi hf (h.inj i hi _ _ hf (h.next_lt hi f) e).symm

/-- Within one cell an edge determines the local face. -/
theorem Lin.edge_inj {m : Mesh} (h : Lin m) {i f g : ℕ} (hi : i < m.nelem) (hf : f < m.nnode i)
    (hg : g < m.nnode i) (he : edge m (i, f) = edge m (i, g)) : f = g := by
  simp only [edge, Sym2.eq_iff] at he
  rcases he with ⟨h1, _⟩ | ⟨h1, h2⟩
  · exact h.inj i hi _ _ hf hg h1
  · have a := h.inj i hi _ _ hf (h.next_lt hi g) h1
    have b := h.inj i hi _ _ (h.next_lt hi f) hg h2
    have h3 := h.three i hi
    exfalso
    by_cases hf1 : f + 1 < m.nnode i
    · rw [Nat.mod_eq_of_lt hf1] at b
      by_cases hg1 : g + 1 < m.nnode i
      · rw [Nat.mod_eq_of_lt hg1] at a; omega
      · have : g + 1 = m.nnode i := by omega
        rw [this, Nat.mod_self] at a; omega
    · have e : f + 1 = m.nnode i := by omega
      rw [e, Nat.mod_self] at b
      by_cases hg1 : g + 1 < m.nnode i
      · rw [Nat.mod_eq_of_lt hg1] at a; omega
      · have : g + 1 = m.nnode i := by omega
        rw [this, Nat.mod_self] at a; omega

/-! ### Writes -/

theorem upd2_same {α : Type*} (e : ℕ → ℕ → α) (i j : ℕ) (v : α) : upd2 e i j v i j = v := by simp [upd2]

theorem upd2_ne {α : Type*} (e : ℕ → ℕ → α) {i j a b : ℕ} (v : α) (h : (a, b) ≠ (i, j)) :
    upd2 e i j v a b = e a b := by
  have : ¬ (a = i ∧ b = j) := fun h' => h (by simp [h'.1, h'.2])
  simp [upd2, this]

/-- The assignments made for one pair of coinciding faces. -/
def glue (e : ℕ → ℕ → Option ℕ) (w : (ℕ × ℕ) × (ℕ × ℕ)) : ℕ → ℕ → Option ℕ :=
  upd2 (upd2 e w.1.1 w.1.2 (some w.2.1)) w.2.1 w.2.2 (some w.1.1)

theorem glue_fold (M : List ((ℕ × ℕ) × (ℕ × ℕ))) (hM : ∀ w ∈ M, w.1 ≠ w.2) (a b : ℕ) :
    (∀ j, M.foldl glue (fun _ _ => none) a b = some j →
      ∃ w ∈ M, (w.1 = (a, b) ∧ w.2.1 = j) ∨ (w.2 = (a, b) ∧ w.1.1 = j)) ∧
    (M.foldl glue (fun _ _ => none) a b = none → ∀ w ∈ M, w.1 ≠ (a, b) ∧ w.2 ≠ (a, b)) := by
  induction M using List.reverseRecOn with
  | nil => simp
  | append_singleton M w ih =>
    have ih := ih (fun w hw => hM w (by simp [hw]))
    have hw := hM w (by simp)
    rw [List.foldl_append]
    simp only [List.foldl_cons, List.foldl_nil]
    generalize M.foldl glue (fun _ _ => none) = e at ih ⊢
    unfold glue
    by_cases h2 : (a, b) = w.2
    · have : w.2.1 = a ∧ w.2.2 = b := by rw [← h2]; exact ⟨rfl, rfl⟩
      rw [this.1, this.2, upd2_same]
      refine ⟨fun j hj => ⟨w, by simp, Or.inr ⟨h2.symm, by simpa using hj⟩⟩, fun h => by simp at h⟩
    · rw [upd2_ne _ _ h2]
      by_cases h1 : (a, b) = w.1
      · have : w.1.1 = a ∧ w.1.2 = b := by rw [← h1]; exact ⟨rfl, rfl⟩
        rw [this.1, this.2, upd2_same]
        refine ⟨fun j hj => ⟨w, by simp, Or.inl ⟨h1.symm, by simpa using hj⟩⟩, fun h => by simp at h⟩
      · rw [upd2_ne _ _ h1]
        refine ⟨fun j hj => ?_, fun h w' hw' => ?_⟩
        · obtain ⟨w', hw', h'⟩ := ih.1 j hj
          exact ⟨w', by simp [hw'], h'⟩
        · rcases List.mem_append.1 hw' with hw' | hw'
          · exact ih.2 h w' hw'
          · simp at hw'; subst hw'
            exact ⟨fun h => h1 h.symm, fun h => h2 h.symm⟩

/-! ### The loops make exactly the writes for coinciding faces -/

/-- The local faces of `j` coinciding with `x`. -/
def matchesOf (m : Mesh) (x : ℕ × ℕ) (j : ℕ) : List ((ℕ × ℕ) × (ℕ × ℕ)) :=
  ((List.range (m.nfael j)).filter fun g => edge m x = edge m (j, g)).map fun g => (x, (j, g))

/-- All writes for the local face `x`. -/
def faceMatches (m : Mesh) (x : ℕ × ℕ) : List ((ℕ × ℕ) × (ℕ × ℕ)) :=
  (((esup m).list (m.inpoel x.1 x.2)).filter fun j => j ≠ x.1).flatMap (matchesOf m x)

theorem foldl_ite {α σ : Type*} (l : List α) (p : α → Prop) [DecidablePred p] (f : σ → α → σ) (s : σ) :
    l.foldl (fun s a => if p a then f s a else s) s = (l.filter fun a => p a).foldl f s := by
  induction l generalizing s with
  | nil => rfl
  | cons a l ih => by_cases h : p a <;> simp [h, ih]

theorem esuelMatch_eq {m : Mesh} (hm : Lin m) {x y : ℕ × ℕ} (hx : IsFace m x) (hy : IsFace m y)
    (lp : ℕ → ℕ) (hlp : ∀ v, lp v = 1 ↔ (v = faceNodeI m x.1 x.2 0 ∨ v = faceNodeI m x.1 x.2 1))
    (e : ℕ → ℕ → Option ℕ) :
    esuelMatch m lp x.1 x.2 y.1 y.2 e = if edge m x = edge m y then glue e (x, y) else e := by
  have hnf := hm.nf y.1 hy.1
  have hx0 : faceNodeI m x.1 x.2 0 = m.inpoel x.1 x.2 := by
    simp [faceNodeI, Nat.mod_eq_of_lt hx.2]
  have hy0 : faceNodeJ m y.1 y.2 0 = m.inpoel y.1 y.2 := by
    simp [faceNodeJ, hnf, Nat.mod_eq_of_lt hy.2]
  have hy1 : faceNodeJ m y.1 y.2 1 = m.inpoel y.1 ((y.2 + 1) % m.nnode y.1) := by
    simp [faceNodeJ, hnf]
  have hx1 : faceNodeI m x.1 x.2 1 = m.inpoel x.1 ((x.2 + 1) % m.nnode x.1) := rfl
  have nx := hm.node_ne hx.1 hx.2
  have ny := hm.node_ne hy.1 hy.2
  unfold esuelMatch
  rw [forLt_succ, forLt_succ, forLt_zero]
  simp only [hlp, hx0, hx1, hy0, hy1, glue, edge, Sym2.eq_iff]
  generalize m.inpoel x.1 x.2 = a at nx ⊢
  generalize m.inpoel x.1 ((x.2 + 1) % m.nnode x.1) = b at nx ⊢
  generalize m.inpoel y.1 y.2 = c at ny ⊢
  generalize m.inpoel y.1 ((y.2 + 1) % m.nnode y.1) = d at ny ⊢
  have key : (c = a ∨ c = b) ∧ (d = a ∨ d = b) ↔ (a = c ∧ b = d ∨ a = d ∧ b = c) := by
    constructor
    · rintro ⟨rfl | rfl, rfl | rfl⟩ <;> simp_all
    · rintro (⟨rfl, rfl⟩ | ⟨rfl, rfl⟩) <;> simp
  by_cases h1 : c = a ∨ c = b <;> by_cases h2 : d = a ∨ d = b <;>
    simp only [h1, h2, if_true, if_false] <;>
    simp only [h1, h2, false_and, and_false, and_self, true_iff, false_iff] at key <;>
    simp [key]

theorem esuelSearch_eq {m : Mesh} (hm : Lin m) {x : ℕ × ℕ} (hx : IsFace m x)
    (lp : ℕ → ℕ) (hlp : ∀ v, lp v = 1 ↔ (v = faceNodeI m x.1 x.2 0 ∨ v = faceNodeI m x.1 x.2 1))
    (e : ℕ → ℕ → Option ℕ) :
    esuelSearch m (esup m) lp x.1 x.2 e = (faceMatches m x).foldl glue e := by
  have hx0 : faceNodeI m x.1 x.2 0 = m.inpoel x.1 x.2 := by
    simp [faceNodeI, Nat.mod_eq_of_lt hx.2]
  unfold esuelSearch faceMatches
  rw [foldl_ite, hx0, List.foldl_flatMap]
  apply List.foldl_ext
  intro e j hj
  have hj' : j < m.nelem := by
    rw [List.mem_filter] at hj
    exact ((C25_membership hm.nodesOk (hm.lt _ hx.1 _ hx.2) j).1 hj.1).1
  rw [matchesOf, List.foldl_map, ← foldl_ite (List.range (m.nfael j)) (fun g => edge m x = edge m (j, g))
    (fun s g => glue s (x, (j, g)))]
  unfold forLt
  apply List.foldl_ext
  intro e g hg
  have hg' : g < m.nnode j := by rw [← hm.nf j hj']; simpa using hg
  exact esuelMatch_eq hm hx (y := (j, g)) ⟨hj', hg'⟩ lp hlp e

/-- All writes, in program order. -/
def allMatches (m : Mesh) : List ((ℕ × ℕ) × (ℕ × ℕ)) := (pairs m.nelem m.nfael).flatMap (faceMatches m)

theorem esuel_eq {m : Mesh} (hm : Lin m) : esuel m (esup m) = (allMatches m).foldl glue (fun _ _ => none) := by
  unfold esuel
  rw [forLt_forLt]
  have key : ∀ P : List (ℕ × ℕ), (∀ x ∈ P, IsFace m x) →
      P.foldl (fun s x => esuelFace m (esup m) x.1 x.2 s) ((fun _ => 0), fun _ _ => none)
        = ((fun _ => 0), (P.flatMap (faceMatches m)).foldl glue (fun _ _ => none)) := by
    intro P
    induction P using List.reverseRecOn with
    | nil => simp
    | append_singleton P x ih =>
      intro hP
      rw [List.foldl_append, ih (fun y hy => hP y (by simp [hy]))]
      have hx := hP x (by simp)
      simp only [List.foldl_cons, List.foldl_nil, esuelFace, List.flatMap_append, List.flatMap_cons,
        List.flatMap_nil, List.append_nil, List.foldl_append]
      refine Prod.ext ?_ ?_
      · funext v
        simp only [forLt_succ, forLt_zero, upd]
        split_ifs <;> rfl
      · refine esuelSearch_eq hm hx _ ?_ _
        intro v
        simp only [forLt_succ, forLt_zero, upd]
        by_cases h1 : v = faceNodeI m x.1 x.2 1 <;> by_cases h0 : v = faceNodeI m x.1 x.2 0 <;>
          simp [h1, h0]
  rw [key]
  · rfl
  · intro x hx
    rw [mem_pairs] at hx
    exact ⟨hx.1, by rw [← hm.nf _ hx.1]; exact hx.2⟩

theorem mem_allMatches {m : Mesh} (hm : Lin m) (w : (ℕ × ℕ) × (ℕ × ℕ)) :
    w ∈ allMatches m ↔ Glued m w.1 w.2 := by
  rcases w with ⟨⟨i, f⟩, ⟨j, g⟩⟩
  simp only [allMatches, faceMatches, matchesOf, List.mem_flatMap, mem_pairs, List.mem_filter,
    List.mem_map, List.mem_range, decide_eq_true_eq, Glued, IsFace]
  constructor
  · rintro ⟨x, ⟨hx1, hx2⟩, j', ⟨hj', hne⟩, g', ⟨hg', he⟩, heq⟩
    simp only [Prod.mk.injEq] at heq
    obtain ⟨rfl, rfl, rfl⟩ := heq
    rw [hm.nf _ hx1] at hx2
    have hj2 := ((C25_membership hm.nodesOk (hm.lt _ hx1 _ hx2) j').1 hj').1
    rw [hm.nf _ hj2] at hg'
    exact ⟨⟨hx1, hx2⟩, ⟨hj2, hg'⟩, fun h => hne h.symm, he⟩
  · rintro ⟨⟨hi, hf⟩, ⟨hj, hg⟩, hne, he⟩
    refine ⟨(i, f), ⟨hi, by rw [hm.nf _ hi]; exact hf⟩, j, ⟨?_, fun h => hne h.symm⟩, g,
      ⟨by rw [hm.nf _ hj]; exact hg, he⟩, rfl⟩
    rw [C25_membership hm.nodesOk (hm.lt _ hi _ hf) j]
    refine ⟨hj, ?_⟩
    rw [hm.nf _ hj]
    simp only [edge, Sym2.eq_iff] at he
    rcases he with ⟨h1, _⟩ | ⟨h1, _⟩
    · exact ⟨g, hg, h1.symm⟩
    · exact ⟨_, hm.next_lt hj g, h1.symm⟩

/-! ### C26 -/

/-- C26: a recorded neighbour shares the edge (no manifold assumption). -/
theorem C26_sound {m : Mesh} (hm : Lin m) {i f j : ℕ} (h : esuel m (esup m) i f = some j) :
    ∃ g, Glued m (i, f) (j, g) := by
  rw [esuel_eq hm] at h
  obtain ⟨w, hw, h'⟩ := (glue_fold (allMatches m) (fun w hw e =>
    ((mem_allMatches hm w).1 hw).2.2.1 (by rw [e])) i f).1 j h
  have hg := (mem_allMatches hm w).1 hw
  rcases h' with ⟨h1, h2⟩ | ⟨h1, h2⟩
  · exact ⟨w.2.2, by rw [← h2, ← h1]; exact hg⟩
  · exact ⟨w.1.2, by rw [← h2, ← h1]; exact hg.symm⟩

/-- C26: a face shared with another cell has a recorded neighbour (no manifold assumption). -/
theorem C26_complete {m : Mesh} (hm : Lin m) {x y : ℕ × ℕ} (h : Glued m x y) :
    ∃ j, esuel m (esup m) x.1 x.2 = some j := by
  by_contra hc
  have hn : esuel m (esup m) x.1 x.2 = none := by
    cases he : esuel m (esup m) x.1 x.2 with
    | none => rfl
    | some j => exact absurd ⟨j, he⟩ hc
  rw [esuel_eq hm] at hn
  exact ((glue_fold (allMatches m) (fun w hw e =>
    ((mem_allMatches hm w).1 hw).2.2.1 (by rw [e])) x.1 x.2).2 hn (x, y)
      ((mem_allMatches hm (x, y)).2 h)).1 rfl

/-- C26: on meshes where at most two cells meet at an edge, `j` is recorded across face `f` of `i`
exactly if `j` is the other cell with that edge. -/
theorem C26_adjacency_exact {m : Mesh} (hm : Lin m) (hM : Manifold m) (i f j : ℕ) :
    esuel m (esup m) i f = some j ↔ ∃ g, Glued m (i, f) (j, g) := by
  refine ⟨C26_sound hm, ?_⟩
  rintro ⟨g, hg⟩
  obtain ⟨j', hj'⟩ := C26_complete hm hg
  obtain ⟨g', hg'⟩ := C26_sound hm hj'
  have := hM _ _ _ hg hg'
  simp only [Prod.mk.injEq] at this
  rw [this.1]; exact hj'

/-- C26: the recorded relation is symmetric: `i` is recorded across the coinciding face of `j`. -/
theorem C26_symmetric {m : Mesh} (hm : Lin m) (hM : Manifold m) {i f j : ℕ}
    (h : esuel m (esup m) i f = some j) :
    ∃ g, g < m.nnode j ∧ edge m (j, g) = edge m (i, f) ∧ esuel m (esup m) j g = some i := by
  obtain ⟨g, hg⟩ := C26_sound hm h
  exact ⟨g, hg.2.1.2, hg.2.2.2.symm, (C26_adjacency_exact hm hM j g i).2 ⟨f, hg.symm⟩⟩

/-! ### Concrete meshes -/

/-- A hybrid mesh: a unit square and a triangle to its right, with five boundary faces, the second of
which is listed against its cell's orientation. -/
noncomputable def exMesh : Mesh where
  npoin := 5
  nelem := 2
  nbface := 5
  nconnface := 0
  nbtag := 1
  ndtag := 1
  nnode := fun i => if i = 0 then 4 else 3
  nfael := fun i => if i = 0 then 4 else 3
  inpoel := fun i j => if i = 0 then (if j = 0 then 0 else if j = 1 then 1 else if j = 2 then 2 else 3)
    else (if j = 0 then 1 else if j = 1 then 4 else 2)
  bface := fun i j => if i = 0 then (if j = 0 then 0 else 1) else if i = 1 then (if j = 0 then 4 else 1)
    else if i = 2 then (if j = 0 then 4 else 2) else if i = 3 then (if j = 0 then 2 else 3)
    else (if j = 0 then 3 else 0)
  btag := fun i _ => if i = 2 then 7 else 3
  volRegions := fun i _ => i + 10
  connface := fun _ _ => 0
  coords := fun v => if v = 0 then ![0, 0] else if v = 1 then ![1, 0] else if v = 2 then ![1, 1]
    else if v = 3 then ![0, 1] else ![2, 0]

theorem exMesh_lin : Lin exMesh := by
  constructor
  · intro i _; rfl
  · intro i _; show 3 ≤ (if i = 0 then 4 else 3); split_ifs <;> omega
  · show ∀ i, i < 2 → ∀ j, j < (if i = 0 then 4 else 3) → exMesh.inpoel i j < 5
    decide
  · show ∀ i, i < 2 → ∀ j k, j < (if i = 0 then 4 else 3) → k < (if i = 0 then 4 else 3) → exMesh.inpoel i j = exMesh.inpoel i k → j = k
    intro i hi
    have h : ∀ j, j < (if i = 0 then 4 else 3) → ∀ k, k < (if i = 0 then 4 else 3) → exMesh.inpoel i j = exMesh.inpoel i k → j = k := by
      obtain rfl | rfl : i = 0 ∨ i = 1 := by omega
      · decide
      · decide
    exact fun j k hj hk => h j hj k hk

/-- The hypotheses of the C25/C26 theorems hold for the hybrid mesh; the lists are as expected. -/
example : (esup exMesh).list 1 = [0, 1] ∧ (esup exMesh).list 3 = [0] ∧
    esuel exMesh (esup exMesh) 0 1 = some 1 ∧ esuel exMesh (esup exMesh) 1 2 = some 0 ∧
    esuel exMesh (esup exMesh) 0 0 = none := by
  refine ⟨by decide, by decide, by decide, by decide, by decide⟩

theorem exMesh_glued : ∀ x y, Glued exMesh x y → (x = (0, 1) ∧ y = (1, 2)) ∨ (x = (1, 2) ∧ y = (0, 1)) := by
    rintro ⟨i, f⟩ ⟨j, g⟩ ⟨⟨hi, hf⟩, ⟨hj, hg⟩, hne, he⟩
    simp only at *
    have hi : i < 2 := hi
    have hj : j < 2 := hj
    rcases (by omega : (i = 0 ∧ j = 1) ∨ (i = 1 ∧ j = 0)) with ⟨rfl, rfl⟩ | ⟨rfl, rfl⟩
    · revert f g; show ∀ f g, f < 4 → g < 3 → _
      have h : ∀ f, f < 4 → ∀ g, g < 3 → edge exMesh (0, f) = edge exMesh (1, g) → f = 1 ∧ g = 2 := by
        decide
      intro f g hf hg he
      obtain ⟨rfl, rfl⟩ := h f hf g hg he
      exact Or.inl ⟨rfl, rfl⟩
    · revert f g; show ∀ f g, f < 3 → g < 4 → _
      have h : ∀ f, f < 3 → ∀ g, g < 4 → edge exMesh (1, f) = edge exMesh (0, g) → f = 2 ∧ g = 1 := by
        decide
      intro f g hf hg he
      obtain ⟨rfl, rfl⟩ := h f hf g hg he
      exact Or.inr ⟨rfl, rfl⟩

theorem exMesh_manifold : Manifold exMesh := by
  have key := exMesh_glued
  intro x y z hy hz
  rcases key _ _ hy with ⟨a, b⟩ | ⟨a, b⟩ <;> rcases key _ _ hz with ⟨c, d⟩ | ⟨c, d⟩
  · rw [b, d]
  · rw [a] at c; simp at c
  · rw [a] at c; simp at c
  · rw [b, d]

/-- Three triangles sharing the edge `{0, 1}`. -/
noncomputable def fanMesh : Mesh where
  npoin := 5
  nelem := 3
  nbface := 0
  nconnface := 0
  nbtag := 1
  ndtag := 1
  nnode := fun _ => 3
  nfael := fun _ => 3
  inpoel := fun i j => if j = 0 then 0 else if j = 1 then 1 else i + 2
  bface := fun _ _ => 0
  btag := fun _ _ => 0
  volRegions := fun _ _ => 0
  connface := fun _ _ => 0
  coords := fun _ => ![0, 0]

/-- C26: the manifold assumption is needed: with three cells on one edge, cell 0 records cell 2 but
cell 2 records cell 1. -/
theorem C26_nonmanifold_refuted : Lin fanMesh ∧ esuel fanMesh (esup fanMesh) 0 0 = some 2 ∧
    esuel fanMesh (esup fanMesh) 2 0 = some 1 ∧ ∀ g, g < 3 → esuel fanMesh (esup fanMesh) 2 g ≠ some 0 := by
  refine ⟨⟨fun _ _ => rfl, fun _ _ => le_rfl, ?_, ?_⟩, by decide, by decide, by decide⟩
  · show ∀ i, i < 3 → ∀ j, j < 3 → fanMesh.inpoel i j < 5
    decide
  · show ∀ i, i < 3 → ∀ j k, j < 3 → k < 3 → fanMesh.inpoel i j = fanMesh.inpoel i k → j = k
    have h : ∀ i, i < 3 → ∀ j, j < 3 → ∀ k, k < 3 → fanMesh.inpoel i j = fanMesh.inpoel i k → j = k := by
      decide
    exact fun i hi j k hj hk => h i hi j hj k hk

end Msh
end FVENS
