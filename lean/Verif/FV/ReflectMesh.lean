import Verif.FV.Reflect
import Verif.Par.Renumber

/-!
# The mirror image of a mesh (C100)

Point coordinates are mirrored, the nodes of cells and boundary faces are listed in the opposite order so that cells stay positively oriented.
-/

namespace FVENS

open Msh Finset Flux FV Par

namespace Reflection
variable (M : Reflection) {m : Mesh} {s : FState}

/-- The mesh file of the mirror image. -/
def mesh (m : Mesh) : Mesh :=
  { m with inpoel := fun i j => m.inpoel i (m.nnode i - 1 - j)
           bface := fun k j => if j = 0 then m.bface k 1 else if j = 1 then m.bface k 0 else m.bface k j
           coords := fun p => M.pt (m.coords p) }

/-- Local face of the original that becomes local face `f` of the mirror image of a cell with `n` nodes. -/
def face (n f : ℕ) : ℕ := if f + 1 = n then f else n - 2 - f

theorem face_lt {n f : ℕ} (hf : f < n) : face n f < n := by unfold face; split_ifs <;> omega
theorem face_face {n f : ℕ} (hf : f < n) : face n (face n f) = f := by unfold face; split_ifs <;> omega

theorem node_first (m : Mesh) {i f : ℕ} (hf : f < m.nnode i) : (M.mesh m).inpoel i f = m.inpoel i ((face (m.nnode i) f + 1) % m.nnode i) := by
  show m.inpoel i (m.nnode i - 1 - f) = _
  unfold face
  split_ifs with h
  · rw [h, Nat.mod_self]; congr 1; omega
  · rw [Nat.mod_eq_of_lt (by omega)]; congr 1; omega

theorem node_last (m : Mesh) {i f : ℕ} (hf : f < m.nnode i) : (M.mesh m).inpoel i ((f + 1) % m.nnode i) = m.inpoel i (face (m.nnode i) f) := by
  show m.inpoel i (m.nnode i - 1 - (f + 1) % m.nnode i) = _
  unfold face
  split_ifs with h
  · rw [h, Nat.mod_self]; congr 1; omega
  · rw [Nat.mod_eq_of_lt (by omega)]; congr 1; omega

theorem edge_mesh {i f : ℕ} (hf : f < m.nnode i) : edge (M.mesh m) (i, f) = edge m (i, face (m.nnode i) f) := by
  unfold edge
  simp only
  rw [show (M.mesh m).nnode i = m.nnode i from rfl, node_first M m hf, node_last M m hf, Sym2.eq_swap]

theorem isFace_mesh {x : ℕ × ℕ} : IsFace (M.mesh m) x ↔ IsFace m x := Iff.rfl

theorem bface_mesh (k : ℕ) : s((M.mesh m).bface k 0, (M.mesh m).bface k 1) = s(m.bface k 0, m.bface k 1) := by
  show s(m.bface k 1, m.bface k 0) = _
  exact Sym2.eq_swap

theorem glued_mesh {x y : ℕ × ℕ} : Glued (M.mesh m) x y ↔ IsFace m x ∧ IsFace m y ∧ Glued m (x.1, face (m.nnode x.1) x.2) (y.1, face (m.nnode y.1) y.2) := by
  constructor
  · rintro ⟨h1, h2, h3, h4⟩
    refine ⟨h1, h2, ⟨h1.1, face_lt h1.2⟩, ⟨h2.1, face_lt h2.2⟩, h3, ?_⟩
    obtain ⟨i, f⟩ := x
    obtain ⟨j, g⟩ := y
    rw [edge_mesh M (m := m) h1.2, edge_mesh M (m := m) h2.2] at h4; exact h4
  · rintro ⟨h1, h2, h3, h4, h5, h6⟩
    refine ⟨h1, h2, h5, ?_⟩
    obtain ⟨i, f⟩ := x
    obtain ⟨j, g⟩ := y
    rw [edge_mesh M h1.2, edge_mesh M h2.2]; exact h6

theorem lin_mesh (h : Lin m) : Lin (M.mesh m) := by
  refine ⟨h.nf, h.three, fun i hi j hj => h.lt i hi _ ?_, fun i hi j k hj hk e => ?_⟩
  · have hj : j < m.nnode i := hj
    omega
  · have hj : j < m.nnode i := hj
    have hk : k < m.nnode i := hk
    have := h.inj i hi _ _ (by omega) (by omega) e
    omega

/-- The mirror image of a conforming mesh conforms. -/
theorem conforming_mesh (hc : Conforming m) (hn : m.nconnface = 0) : Conforming (M.mesh m) := by
  have hm := hc.lin
  refine ⟨M.lin_mesh hm, fun x y z h1 h2 => ?_, fun x y hg => ?_, fun k hk => ?_, fun k l hk hl e => ?_, fun ic hic => ?_, fun ic jc hic => ?_,
    fun ic hic => ?_, fun ic k hic => ?_, fun x hx => ?_⟩
  · obtain ⟨a1, a2, a3⟩ := M.glued_mesh.1 h1
    obtain ⟨b1, b2, b3⟩ := M.glued_mesh.1 h2
    have e := hc.manifold _ _ _ a3 b3
    obtain ⟨e1, e2⟩ := Prod.mk.inj e
    refine Prod.ext e1 ?_
    rw [← face_face a2.2, ← face_face b2.2, e2, e1]
  · obtain ⟨a1, a2, a3⟩ := M.glued_mesh.1 hg
    obtain ⟨i, f⟩ := x
    obtain ⟨j, g⟩ := y
    have := hc.opposite _ _ a3.symm
    show (M.mesh m).inpoel j g = (M.mesh m).inpoel i ((f + 1) % m.nnode i)
    rw [node_first M m a2.2, node_last M m a1.2]
    exact this.symm
  · obtain ⟨⟨i, f⟩, hx, h0, h1⟩ := hc.bf k hk
    refine ⟨(i, face (m.nnode i) f), ⟨hx.1, face_lt hx.2⟩, ?_, ?_⟩
    · show m.bface k 1 = (M.mesh m).inpoel i (face (m.nnode i) f)
      rw [h1, node_first M m (face_lt hx.2), face_face hx.2]
    · show m.bface k 0 = (M.mesh m).inpoel i ((face (m.nnode i) f + 1) % m.nnode i)
      rw [h0, node_last M m (face_lt hx.2), face_face hx.2]
  · rw [M.bface_mesh, M.bface_mesh] at e
    exact hc.bfDistinct k l hk hl e
  · exact absurd (show ic < m.nconnface from hic) (by omega)
  · exact absurd (show ic < m.nconnface from hic) (by omega)
  · exact absurd (show ic < m.nconnface from hic) (by omega)
  · exact absurd (show ic < m.nconnface from hic) (by omega)
  · obtain ⟨i, f⟩ := x
    have hx : IsFace m (i, f) := hx
    rcases hc.cover (i, face (m.nnode i) f) ⟨hx.1, face_lt hx.2⟩ with ⟨⟨j, g⟩, hg⟩ | ⟨k, hk, e⟩ | ⟨ic, hic, -⟩
    · refine Or.inl ⟨(j, face (m.nnode j) g), M.glued_mesh.2 ⟨hx, ⟨hg.2.1.1, face_lt hg.2.1.2⟩, ?_⟩⟩
      simp only
      rw [face_face hg.2.1.2]; exact hg
    · refine Or.inr (Or.inl ⟨k, hk, ?_⟩)
      rw [M.bface_mesh, edge_mesh M hx.2]; exact e
    · omega

theorem hasBoth_mesh (p q i : ℕ) : HasBoth (M.mesh m) p q i ↔ HasBoth m q p i := by
  have h : ∀ p, HasVertex (M.mesh m) i p ↔ HasVertex m i p := fun p => by
    unfold HasVertex
    refine and_congr_right fun hi => ⟨?_, ?_⟩
    · rintro ⟨j, hj, e⟩
      have hj : j < m.nnode i := hj
      exact ⟨m.nnode i - 1 - j, by omega, e⟩
    · rintro ⟨j, hj, e⟩
      refine ⟨m.nnode i - 1 - j, by show _ < m.nnode i; omega, ?_⟩
      show m.inpoel i (m.nnode i - 1 - (m.nnode i - 1 - j)) = p
      rw [show m.nnode i - 1 - (m.nnode i - 1 - j) = j by omega]; exact e
  unfold HasBoth
  rw [h, h, and_comm]

/-- The connectivity computation succeeds on the mirror image. -/
theorem topological_mesh (hc : Conforming m) (h : topological m = .ok s) : ∃ s', topological (M.mesh m) = .ok s' := by
  have hm := M.lin_mesh hc.lin
  have key : ∀ k, k < m.nbface → ∃ x, bfaceHost (M.mesh m) (esup (M.mesh m)) ((M.mesh m).bface k 0) ((M.mesh m).bface k 1) = .ok x := by
    intro k hk
    obtain ⟨⟨i, f⟩, hx, e0, e1⟩ := hc.bf k hk
    obtain ⟨e, hu, -⟩ := (C27_ranges hc.lin hc.bfOk h).2.1 k hk
    have hed : edge m (i, f) = s(m.bface k 0, m.bface k 1) := by rw [e0, e1]; rfl
    have hxe := (hu _).1 (hasBoth_of_edge hc.lin hx hed)
    obtain ⟨b0, b1⟩ := hc.bfOk k hk
    refine ⟨(i, face (m.nnode i) f), (C28_ok_iff hm (show m.bface k 1 < m.npoin from b1) (show m.bface k 0 < m.npoin from b0) _ _).2 ⟨fun j => ?_, face_lt hx.2, ?_⟩⟩
    · rw [hasBoth_mesh M]
      show HasBoth m (m.bface k 0) (m.bface k 1) j ↔ j = i
      rw [hu, ← hxe]
    · rw [edge_mesh M (face_lt hx.2), face_face hx.2, Sym2.eq_swap]; exact hed
  choose! x hx using key
  refine topological_of_hosts (hosts := (List.range m.nbface).map x) ((mapRes_ok _ _ _).2 ⟨by simp; rfl, fun k h1 h2 => ?_⟩)
  rw [List.getElem_range, List.getElem_map, List.getElem_range]
  have h1' : k < (List.range m.nbface).length := h1
  exact hx k (by simpa using h1')

theorem pt_inj {a b : V2} (h : M.pt a = M.pt b) : a = b := by
  have e0 := congrFun h 0
  have e1 := congrFun h 1
  simp only [pt, refV_0, refV_1] at e0 e1
  have hu := M.unit
  funext d; fin_cases d
  · show a 0 = b 0
    linear_combination M.c * e0 + M.s * e1 + (b 0 - a 0) * hu
  · show a 1 = b 1
    linear_combination M.s * e0 - M.c * e1 + (b 1 - a 1) * hu

theorem noZero_mesh (hz : NoZeroFace m) : NoZeroFace (M.mesh m) := by
  rintro ⟨i, f⟩ hx e
  have hx : IsFace m (i, f) := hx
  have e : M.pt (m.coords ((M.mesh m).inpoel i f)) = M.pt (m.coords ((M.mesh m).inpoel i ((f + 1) % m.nnode i))) := e
  rw [node_first M m hx.2, node_last M m hx.2] at e
  exact hz (i, face (m.nnode i) f) ⟨hx.1, face_lt hx.2⟩ (M.pt_inj e).symm

theorem area_mesh (i : ℕ) : area (M.mesh m) i = area m i := by
  have hu := M.unit
  have key : ∀ a b c : V2, triArea (M.pt a) (M.pt b) (M.pt c) = - triArea a b c := fun a b c => by
    simp only [triArea, pt, refV_0, refV_1]
    linear_combination (-(0.5 * (a 0 * (b 1 - c 1) - a 1 * (b 0 - c 0) + b 0 * c 1 - c 0 * b 1))) * hu
  unfold area
  rw [show (M.mesh m).nnode i = m.nnode i from rfl]
  by_cases h3 : m.nnode i = 3
  · simp only [h3, if_true]
    show some (triArea (M.pt (m.coords (m.inpoel i (m.nnode i - 1 - 0)))) (M.pt (m.coords (m.inpoel i (m.nnode i - 1 - 1)))) (M.pt (m.coords (m.inpoel i (m.nnode i - 1 - 2))))) = _
    rw [h3, key]
    simp only [Nat.sub_zero, Nat.reduceSub]
    congr 1
    simp only [triArea]; ring
  · simp only [h3, if_false]
    by_cases h4 : m.nnode i = 4
    · simp only [h4, if_true]
      have hx : ∀ j, (M.mesh m).coords ((M.mesh m).inpoel i j) = M.pt (m.coords (m.inpoel i (m.nnode i - 1 - j))) := fun j => rfl
      simp only [hx, key, h4, Nat.sub_zero, Nat.reduceSub]
      congr 1
      simp only [triArea]; ring
    · simp only [h4, if_false]

/-- Settings with mirrored boundary conditions. -/
def settings (P : Settings) : Settings := { P with bc := fun t => (P.bc t).map M.obj }

/-- C100: what the code sets up from the mirrored mesh file is the mirror image of what it sets up from the original, for every mesh. -/
theorem C100_setup {P : Settings} (hc : Conforming m) (hn : m.nconnface = 0) (hz : NoZeroFace m) (ht : topological m = .ok s) (hv : P.viscous = false) :
    ∃ s', topological (M.mesh m) = .ok s' ∧ ((M.settings P).disc (M.mesh m) s' 0).G.Ok ∧
      Disc.Mirrored M (P.disc m s 0) ((M.settings P).disc (M.mesh m) s' 0) id id fun i => face (m.nnode i) := by
  obtain ⟨s', hs'⟩ := M.topological_mesh hc ht
  refine ⟨s', hs', ⟨M.conforming_mesh hc hn, M.noZero_mesh hz, hs'⟩, hn, hn, fun i hi => hi, fun i hi => rfl, fun i hi f hf => face_lt hf, fun i hi f hf g hg e => ?_,
    fun i hi f hf => ?_, fun i hi f hf => ?_, fun i hi f hf j hj => ?_, fun i hi f hf k hk => ?_, fun k hk => rfl, rfl, rfl, hv, hv, fun i hi => ?_⟩
  · rw [← face_face (show f < m.nnode i from hf), ← face_face (show g < m.nnode i from hg)]; exact congrArg _ e
  · show M.pt (m.coords ((M.mesh m).inpoel i f)) = _
    rw [node_first M m hf]; rfl
  · show M.pt (m.coords ((M.mesh m).inpoel i ((f + 1) % m.nnode i))) = _
    rw [node_last M m hf]; rfl
  · obtain ⟨g, hg⟩ := hj
    exact ⟨_, (M.glued_mesh.1 hg).2.2⟩
  · obtain ⟨k1, k2, k3⟩ := hk
    have k2 : m.bface k 1 = (M.mesh m).inpoel i f := k2
    have k3 : m.bface k 0 = (M.mesh m).inpoel i ((f + 1) % m.nnode i) := k3
    rw [node_first M m hf] at k2
    rw [node_last M m hf] at k3
    exact ⟨k1, k3, k2⟩
  · show (area (M.mesh m) i).getD 0 = (area m i).getD 0
    rw [M.area_mesh]

end Reflection
end FVENS
