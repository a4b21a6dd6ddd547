import Verif.Mesh.Check

/-!
# Assembly of face contributions into cells (C41)

The accumulation part of `compute_fluxes`, src/spatial/flow_spatial.cpp:518-563, for one thread.
-/

namespace FVENS
namespace FV

open Msh Finset

variable {A : Type*} [AddCommGroup A]

/-- Face `k` of the face list (`m->gintfac(ied,·)`). -/
def faceAt (faces : List Face) (k : ℕ) : Face := faces.getD k ⟨0, 0, 0, 0⟩

/-- Adding one face's flux, src/spatial/flow_spatial.cpp:551-561: subtracted from the left cell, added to the right
cell if that is a cell of the subdomain. -/
def addFace (nelem : ℕ) (F : Face) (v : A) (r : ℕ → A) : ℕ → A :=
  let r1 := upd r F.left (r F.left - v)
  if F.right < nelem then upd r1 F.right (r1 F.right + v) else r1

/-- The face loop, src/spatial/flow_spatial.cpp:518-562, in sequential order. -/
def assemble (nelem : ℕ) (faces : List Face) (flux : ℕ → A) (r : ℕ → A) : ℕ → A :=
  forLt faces.length r fun ied r => addFace nelem (faceAt faces ied) (flux ied) r

/-- Contribution of a face to a cell. -/
def contrib (nelem : ℕ) (F : Face) (v : A) (i : ℕ) : A :=
  (if F.right = i ∧ i < nelem then v else 0) - (if F.left = i then v else 0)

theorem addFace_eq (nelem : ℕ) (F : Face) (v : A) (r : ℕ → A) (i : ℕ) : addFace nelem F v r i = r i + contrib nelem F v i := by
  unfold addFace contrib
  by_cases hr : F.right < nelem
  · simp only [hr, if_true, upd]
    by_cases h1 : i = F.right
    · subst h1
      by_cases h2 : F.right = F.left
      · simp [h2, h2 ▸ hr]
      · simp [h2, hr, Ne.symm h2]
    · by_cases h2 : i = F.left
      · subst h2; simp [h1, Ne.symm h1, sub_eq_add_neg]
      · simp [h1, h2, Ne.symm h1, Ne.symm h2]
  · simp only [hr, if_false, upd]
    have h1 : ¬ (F.right = i ∧ i < nelem) := by rintro ⟨rfl, h⟩; exact hr h
    by_cases h2 : i = F.left
    · subst h2; simp [h1, sub_eq_add_neg]
    · simp [h1, h2, Ne.symm h2]

/-- Accumulated value of a cell: the initial value and the contributions of all faces. -/
theorem assemble_eq (nelem : ℕ) (faces : List Face) (flux : ℕ → A) (r : ℕ → A) (i : ℕ) :
    assemble nelem faces flux r i = r i + ∑ k ∈ range faces.length, contrib nelem (faceAt faces k) (flux k) i := by
  have key : ∀ n, forLt n r (fun ied r => addFace nelem (faceAt faces ied) (flux ied) r) i =
      r i + ∑ k ∈ range n, contrib nelem (faceAt faces k) (flux k) i := by
    intro n
    induction n with
    | zero => simp [forLt_zero]
    | succ n ih => rw [forLt_succ, addFace_eq, ih, sum_range_succ, add_assoc]
  exact key _

section mesh
variable {m : Mesh} {s : FState}

theorem faceAt_mem {faces : List Face} {k : ℕ} (h : k < faces.length) : faceAt faces k ∈ faces := by
  simp [faceAt, List.getD, h]

theorem faceAt_get {faces : List Face} {k : ℕ} (h : k < faces.length) : faces[k]? = some (faceAt faces k) := by
  simp [faceAt, List.getD, h]

/-- C41: the sum of the residuals over all cells is the initial sum minus the fluxes of the faces that have a cell on one side only
(physical boundary and interface faces): fluxes of interior faces cancel. -/
theorem C41_conservative (hc : Conforming m) (h : topological m = .ok s) (flux r : ℕ → A) :
    ∑ i ∈ range m.nelem, assemble m.nelem s.faces flux r i = ∑ i ∈ range m.nelem, r i -
      ∑ k ∈ range s.faces.length, if m.nelem ≤ (faceAt s.faces k).right then flux k else 0 := by
  simp only [assemble_eq, sum_add_distrib, sub_eq_add_neg, ← sum_neg_distrib]
  congr 1
  rw [sum_comm]
  refine sum_congr rfl fun k hk => ?_
  have hl : (faceAt s.faces k).left < m.nelem := face_left_lt hc.lin hc.bfOk hc.cf h (faceAt_mem (mem_range.1 hk))
  simp only [contrib, sum_sub_distrib]
  have e1 : ∑ i ∈ range m.nelem, (if (faceAt s.faces k).left = i then flux k else 0) = flux k := by
    rw [sum_ite_eq]; simp [hl]
  rw [e1]
  by_cases hr : (faceAt s.faces k).right < m.nelem
  · have e2 : ∑ i ∈ range m.nelem, (if (faceAt s.faces k).right = i ∧ i < m.nelem then flux k else 0) = flux k := by
      have : ∀ i ∈ range m.nelem, (if (faceAt s.faces k).right = i ∧ i < m.nelem then flux k else 0) =
          if (faceAt s.faces k).right = i then flux k else 0 := fun i hi => by simp [mem_range.1 hi]
      rw [sum_congr rfl this, sum_ite_eq]; simp [hr]
    rw [e2, if_neg (by omega)]; simp
  · have e2 : ∑ i ∈ range m.nelem, (if (faceAt s.faces k).right = i ∧ i < m.nelem then flux k else 0) = 0 := by
      refine sum_eq_zero fun i hi => if_neg ?_
      rintro ⟨rfl, h⟩; exact hr h
    rw [e2, if_pos (by omega)]; simp

/-- The cells named by a face have the face's edge among their local faces. -/
theorem face_local (hc : Conforming m) (h : topological m = .ok s) {F : Face} (hF : F ∈ s.faces) :
    (∃ f, IsFace m (F.left, f) ∧ edge m (F.left, f) = s(F.n0, F.n1)) ∧
    (F.right < m.nelem → ∃ f, IsFace m (F.right, f) ∧ edge m (F.right, f) = s(F.n0, F.n1)) ∧ F.left ≠ F.right := by
  have hm := hc.lin
  obtain ⟨hosts, hh, hf⟩ := topological_faces hm hc.bfOk h
  have hFm := hF
  rw [hf] at hF
  simp only [List.mem_append, List.mem_map, List.mem_range] at hF
  rcases hF with (⟨k, hk, rfl⟩ | hF) | ⟨ic, hic, rfl⟩
  · obtain ⟨h1, h2⟩ := host_edge hm hc.bfOk hh hk
    refine ⟨⟨(hostAt hosts k).2, h1, h2⟩, fun h => ?_, fun h => ?_⟩
    · simp only at h; omega
    · have := h1.1; simp only at h; omega
  · have : F ∈ (s.faces.drop m.nbface).take (ninface m (esuel m (esup m))) := by
      have : (s.faces.drop m.nbface).take (ninface m (esuel m (esup m))) = innerFaces m := by
        rw [ninface_eq hm, hf, List.append_assoc, List.drop_left' (by simp), List.take_left' rfl]
      rw [this]; exact hF
    obtain ⟨f, g, j, i, hgl, hij, rfl⟩ := (C27_interior hm hc.manifold hc.bfOk h F).1 this
    exact ⟨⟨f, hgl.1, rfl⟩, fun _ => ⟨g, hgl.2.1, hgl.2.2.2.symm⟩, hij.ne⟩
  · have hcf := hc.cf ic hic
    refine ⟨⟨m.connface ic 1, hcf, ?_⟩, fun h => ?_, fun h => ?_⟩
    · simp only [edge, faceNodeI, add_zero]
      rw [Nat.mod_eq_of_lt (show m.connface ic 1 < m.nnode (m.connface ic 0) from hcf.2)]
    · simp only at h; omega
    · have := hcf.1; simp only [connKey] at this h; omega

/-- C41: every cell receives the flux through each of its local faces exactly once, outward positive: the flux of the
face counts with a minus sign if the cell is its left cell and with a plus sign otherwise. -/
theorem C41_cell (hc : Conforming m) (h : topological m = .ok s) (flux r : ℕ → A) {i : ℕ} (hi : i < m.nelem) :
    assemble m.nelem s.faces flux r i = r i - ∑ f ∈ range (m.nnode i),
      (match s.elemface i f with
        | some k => if (faceAt s.faces k).left = i then flux k else - flux k
        | none => 0) := by
  rw [assemble_eq, sub_eq_add_neg, ← sum_neg_distrib]
  congr 1
  have hex : ∀ f ∈ range (m.nnode i), ∃ k, s.elemface i f = some k ∧ k < s.faces.length := fun f hf => by
    obtain ⟨⟨k, hk⟩, h2⟩ := C71_elemface hc h (x := (i, f)) ⟨hi, mem_range.1 hf⟩
    obtain ⟨F, hF, _⟩ := (h2 k).1 hk
    exact ⟨k, hk, (List.getElem?_eq_some_iff.1 hF).1⟩
  set g : ℕ → A := fun k => if (faceAt s.faces k).left = i then - flux k else flux k with hg
  have e1 : ∀ f ∈ range (m.nnode i), -(match s.elemface i f with
        | some k => if (faceAt s.faces k).left = i then flux k else - flux k
        | none => (0 : A)) = ∑ k ∈ range s.faces.length, if s.elemface i f = some k then g k else 0 := fun f hf => by
    obtain ⟨k, hk, hlt⟩ := hex f hf
    rw [hk]
    simp only [Option.some.injEq]
    rw [sum_ite_eq, if_pos (mem_range.2 hlt), hg]
    simp only
    split_ifs <;> simp
  rw [sum_congr rfl e1, sum_comm]
  refine sum_congr rfl fun k hk => ?_
  have hk' := mem_range.1 hk
  obtain ⟨l1, l2, l3⟩ := face_local hc h (faceAt_mem hk')
  have huniq : ∀ f f', f < m.nnode i → f' < m.nnode i → s.elemface i f = some k → s.elemface i f' = some k → f = f' := by
    intro f f' hf hf' e e'
    obtain ⟨F, hF, ho, _⟩ := ((C71_elemface hc h (x := (i, f)) ⟨hi, hf⟩).2 k).1 e
    obtain ⟨F', hF', ho', _⟩ := ((C71_elemface hc h (x := (i, f')) ⟨hi, hf'⟩).2 k).1 e'
    rw [hF] at hF'; cases hF'
    exact hc.lin.edge_inj hi hf hf' (ho.symm.trans ho')
  have hone : ∀ f, f < m.nnode i → s.elemface i f = some k →
      (∑ f ∈ range (m.nnode i), if s.elemface i f = some k then g k else 0) = g k := by
    intro f hf he
    rw [sum_eq_single_of_mem f (mem_range.2 hf), if_pos he]
    intro f' hf' hne
    exact if_neg fun e => hne (huniq f' f (mem_range.1 hf') hf e he)
  have hget := faceAt_get hk'
  unfold contrib
  by_cases hl : (faceAt s.faces k).left = i
  · obtain ⟨f, hf, he⟩ := l1
    rw [hl] at hf he
    have hke := ((C71_elemface hc h (x := (i, f)) hf).2 k).2 ⟨_, hget, he.symm, Or.inl hl⟩
    rw [hone f hf.2 hke, if_neg (fun h => l3 (hl.trans h.1.symm)), if_pos hl, hg]
    simp [hl]
  · by_cases hr : (faceAt s.faces k).right = i
    · obtain ⟨f, hf, he⟩ := l2 (by omega)
      rw [hr] at hf he
      have hke := ((C71_elemface hc h (x := (i, f)) hf).2 k).2 ⟨_, hget, he.symm, Or.inr hr⟩
      rw [hone f hf.2 hke, if_pos ⟨hr, hi⟩, if_neg hl, hg]
      simp [hl]
    · rw [if_neg (fun h => hr h.1), if_neg hl, sub_zero]
      refine (sum_eq_zero fun f hf => if_neg fun e => ?_).symm
      obtain ⟨F, hF, _, ho⟩ := ((C71_elemface hc h (x := (i, f)) ⟨hi, mem_range.1 hf⟩).2 k).1 e
      rw [hget] at hF; cases hF
      exact ho.elim hl hr

/-- On the unit square of two triangles the two residuals add up to minus the fluxes of the four boundary faces,
whatever the flux through the diagonal. -/
example : ∃ s, topological sq = .ok s ∧ ∀ flux : ℕ → ℝ, assemble 2 s.faces flux (fun _ => 0) 0 + assemble 2 s.faces flux (fun _ => 0) 1 =
    - ∑ k ∈ range s.faces.length, if 2 ≤ (faceAt s.faces k).right then flux k else 0 := by
  obtain ⟨s, hs⟩ := sq_topological
  refine ⟨s, hs, fun flux => ?_⟩
  have := C41_conservative sq_check.conforming hs flux (fun _ => 0)
  have h2 : sq.nelem = 2 := rfl
  rw [h2] at this
  simpa [sum_range_succ] using this

end mesh

end FV
end FVENS
