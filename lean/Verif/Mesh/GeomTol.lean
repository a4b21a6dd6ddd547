import Verif.Mesh.Geom

/-!
# How far ghost centres may be from mirror images (C24)

The bound of `C24_face_error` with the threshold of src/aconstants.hpp:29 written out.
-/

namespace FVENS
namespace Msh

/-- C24: the ghost centre differs from the mirror image of the cell centre by no more than `2e-12` of the distance of the cell centre from the face's first node (sum of components), in each
component, whatever the face. -/
theorem C24_face_error_value {a b rc : Fin 2 → ℝ} (h : a ≠ b) (d : Fin 2) : |ghostFace a b rc d - refl a b rc d| ≤ 2e-12 * (|rc 0 - a 0| + |rc 1 - a 1|) := by
  have e : 2 * aSmall = 2e-12 := by unfold aSmall; norm_num
  rw [← e]
  exact C24_face_error h d

/-- The face from (0,0) to (1,1e-12) and the centre (0,1): the ghost centre is within `2e-12` of the mirror image. -/
example : |ghostFace ![0, 0] ![1, 1e-12] ![0, 1] 0 - refl ![0, 0] ![1, 1e-12] ![0, 1] 0| ≤ 2e-12 := by
  have := C24_face_error_value (a := ![0, 0]) (b := ![1, 1e-12]) (rc := ![0, 1]) (fun h => by simpa using congrFun h 0) 0
  simpa using this

end Msh
end FVENS
