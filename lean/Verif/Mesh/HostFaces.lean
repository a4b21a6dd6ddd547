import Verif.Mesh.Host

/-!
Hosts of all boundary faces: the list computed by `bfaceHosts` names, for each boundary face, the one cell having both of its points.
Code: src/mesh/mesh.cpp, the function modelled by `bfaceHosts` (see Verif/Mesh/Model.lean).
-/

namespace FVENS
namespace Msh

/-- C28: if the hosts of the boundary faces are found, there is one for every face, it is the only cell having both points of that face,
and these points are the end points of the local face that is named. -/
theorem C28_faces {m : Mesh} (hm : Lin m) (hb : BfOk m) {hosts : List (ℕ × ℕ)} (h : bfaceHosts m (esup m) = .ok hosts) :
    hosts.length = m.nbface ∧ ∀ k (hk : k < hosts.length),
      (∀ i, HasBoth m (m.bface k 0) (m.bface k 1) i ↔ i = hosts[k].1) ∧ hosts[k].2 < m.nnode hosts[k].1 ∧
        edge m hosts[k] = s(m.bface k 0, m.bface k 1) := by
  obtain ⟨h1, h2⟩ := bfaceHosts_ok h
  refine ⟨h1, fun k hk => ?_⟩
  have hk' : k < m.nbface := h1 ▸ hk
  have := h2 k hk'
  rw [hostAt_eq hosts hk] at this
  exact (C28_ok_iff hm (hb k hk').1 (hb k hk').2 hosts[k].1 hosts[k].2).1 this

/-- The example mesh: five boundary faces, with hosts in both cells. -/
example : BfOk exMesh ∧ Lin exMesh ∧ bfaceHosts exMesh (esup exMesh) = .ok [(0, 0), (1, 0), (1, 1), (0, 2), (0, 3)] ∧
    ∀ i, HasBoth exMesh (exMesh.bface 2 0) (exMesh.bface 2 1) i ↔ i = 1 := by
  have hb : BfOk exMesh := by
    intro k hk
    have hk : k < 5 := hk
    rcases k with _ | _ | _ | _ | _ | k
    all_goals first | omega | exact ⟨by decide, by decide⟩
  exact ⟨hb, exMesh_lin, exMesh_hosts, ((C28_faces exMesh_lin hb exMesh_hosts).2 2 (by decide)).1⟩

end Msh
end FVENS
