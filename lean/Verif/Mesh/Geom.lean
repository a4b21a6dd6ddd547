import Verif.Mesh.Conform
import Mathlib.Analysis.SpecialFunctions.Sqrt
import Mathlib.Tactic.FieldSimp
import Mathlib.Tactic.LinearCombination

/-!
# Geometry: face normals, cell areas, ghost-cell centres (C22, C23, C24)
-/

namespace FVENS
namespace Msh

/-! ### Model -/

/-- Face length, src/mesh/mesh.cpp:355. -/
noncomputable def fLen (a b : Fin 2 → ℝ) : ℝ := √((b 1 - a 1) ^ 2 + (-1 * (b 0 - a 0)) ^ 2)

/-- Unit normal of the face from `a` to `b`, src/mesh/mesh.cpp:353-358. -/
noncomputable def fNrm (a b : Fin 2 → ℝ) : Fin 2 → ℝ :=
  ![(b 1 - a 1) / fLen a b, (-1 * (b 0 - a 0)) / fLen a b]

/-- Area of a linear triangle, src/mesh/mesh.cpp:297-300. -/
noncomputable def triArea (a b c : Fin 2 → ℝ) : ℝ :=
  0.5 * (a 0 * (b 1 - c 1) - a 1 * (b 0 - c 0) + b 0 * c 1 - c 0 * b 1)

/-- `compute_areas` for one cell, src/mesh/mesh.cpp:294-312; other cell types leave the area unset. -/
noncomputable def area (m : Mesh) (i : ℕ) : Option ℝ :=
  let x := fun j => m.coords (m.inpoel i j)
  if m.nnode i = 3 then some (triArea (x 0) (x 1) (x 2))
  else if m.nnode i = 4 then some (triArea (x 0) (x 1) (x 2) + triArea (x 0) (x 2) (x 3))
  else none

/-- `compute_cell_centres` for one cell, src/mesh/mesh.cpp:318-327. -/
noncomputable def centre (m : Mesh) (i : ℕ) : Fin 2 → ℝ := fun d =>
  (forLt (m.nnode i) 0 fun j s => s + m.coords (m.inpoel i j) d) / (m.nnode i : ℝ)

/-- `A_SMALL_NUMBER`, src/aconstants.hpp:29. -/
noncomputable def aSmall : ℝ := 1e-12

/-- Ghost centre about the face midpoint, src/spatial/aspatial.cpp:104-117. -/
noncomputable def ghostMid (a b rc : Fin 2 → ℝ) : Fin 2 → ℝ := fun d => 2 * ((0 + a d + b d) / 2) - rc d

/-- Ghost centre about the face, src/spatial/aspatial.cpp:132-168. -/
noncomputable def ghostFace (a b rc : Fin 2 → ℝ) : Fin 2 → ℝ :=
  let nx := fNrm a b 0
  let ny := fNrm a b 1
  let s : ℝ × ℝ :=
    if aSmall < |nx| ∧ aSmall < |ny| then
      let xs := (rc 1 - a 1 - ny / nx * rc 0 + (b 1 - a 1) / (b 0 - a 0) * a 0) / ((b 1 - a 1) / (b 0 - a 0) - ny / nx)
      (xs, a 1 + (b 1 - a 1) / (b 0 - a 0) * (xs - a 0))
    else if |nx| ≤ aSmall then (rc 0, a 1)
    else (a 0, rc 1)
  ![2 * s.1 - rc 0, 2 * s.2 - rc 1]

/-! ### C22: normals -/

theorem fLen_sq (a b : Fin 2 → ℝ) : fLen a b ^ 2 = (b 1 - a 1) ^ 2 + (b 0 - a 0) ^ 2 := by
  rw [fLen, Real.sq_sqrt (by positivity)]; ring

theorem fLen_pos {a b : Fin 2 → ℝ} (h : a ≠ b) : 0 < fLen a b := by
  have hne : fLen a b ≠ 0 := by
    intro h0
    have := fLen_sq a b
    rw [h0] at this
    have h1 : b 1 - a 1 = 0 := by nlinarith [sq_nonneg (b 1 - a 1), sq_nonneg (b 0 - a 0)]
    have h2 : b 0 - a 0 = 0 := by nlinarith [sq_nonneg (b 1 - a 1), sq_nonneg (b 0 - a 0)]
    apply h
    funext i
    fin_cases i
    · simp; linarith
    · simp; linarith
  exact lt_of_le_of_ne (Real.sqrt_nonneg _) (Ne.symm hne)

/-- C22: face normals are unit vectors. -/
theorem C22_unit {a b : Fin 2 → ℝ} (h : a ≠ b) : fNrm a b 0 ^ 2 + fNrm a b 1 ^ 2 = 1 := by
  have hp := fLen_pos h
  have hs := fLen_sq a b
  simp only [fNrm, Matrix.cons_val_zero, Matrix.cons_val_one]
  field_simp
  linarith

/-- C22: face normals are perpendicular to the face. -/
theorem C22_perpendicular (a b : Fin 2 → ℝ) : fNrm a b 0 * (b 0 - a 0) + fNrm a b 1 * (b 1 - a 1) = 0 := by
  simp only [fNrm, Matrix.cons_val_zero, Matrix.cons_val_one]
  ring

/-- C22: the face length is the Euclidean distance of its end points. -/
theorem C22_length (a b : Fin 2 → ℝ) : fLen a b = √((b 0 - a 0) ^ 2 + (b 1 - a 1) ^ 2) := by
  unfold fLen; congr 1; ring

theorem fLen_swap (a b : Fin 2 → ℝ) : fLen b a = fLen a b := by unfold fLen; congr 1; ring

/-- C22: the two directions of traversal give opposite normals and the same length: the cells on both
sides of a face see opposite normals. -/
theorem C22_opposite (a b : Fin 2 → ℝ) : fNrm b a = (fun d => - fNrm a b d) ∧ fLen b a = fLen a b := by
  refine ⟨?_, fLen_swap a b⟩
  funext d
  fin_cases d <;> simp [fNrm, fLen_swap a b] <;> ring

/-- C22: the normal of a face of a counter-clockwise triangle points away from the third vertex; the
distance of that vertex from the face is twice the area over the length. -/
theorem C22_outward {a b c : Fin 2 → ℝ} (h : a ≠ b) :
    fNrm a b 0 * (c 0 - a 0) + fNrm a b 1 * (c 1 - a 1) = - (2 * triArea a b c / fLen a b) := by
  have hp := fLen_pos h
  simp only [fNrm, Matrix.cons_val_zero, Matrix.cons_val_one, triArea]
  field_simp
  ring

/-- The vector `n·length` is the face vector rotated by minus ninety degrees. -/
theorem nrm_len {a b : Fin 2 → ℝ} (h : a ≠ b) (d : Fin 2) :
    fNrm a b d * fLen a b = (![b 1 - a 1, a 0 - b 0] : Fin 2 → ℝ) d := by
  have hp := fLen_pos h
  fin_cases d
  · simp [fNrm]; field_simp
  · simp [fNrm]; field_simp

/-- Cyclic differences add to zero. -/
theorem cyclic_sum {A : Type*} [AddCommGroup A] (n : ℕ) (g : ℕ → A) :
    ∑ f ∈ Finset.range n, (g ((f + 1) % n) - g f) = 0 := by
  rcases n with _ | n
  · simp
  · rw [Finset.sum_range_succ]
    have h1 : ∑ f ∈ Finset.range n, (g ((f + 1) % (n + 1)) - g f) = ∑ f ∈ Finset.range n, (g (f + 1) - g f) := by
      apply Finset.sum_congr rfl
      intro f hf
      rw [Nat.mod_eq_of_lt (by simp at hf; omega)]
    rw [h1, Finset.sum_range_sub, Nat.mod_self]
    abel

/-- End points of every local face are distinct points of the plane. -/
def NoZeroFace (m : Mesh) : Prop := ∀ x, IsFace m x →
  m.coords (m.inpoel x.1 x.2) ≠ m.coords (m.inpoel x.1 ((x.2 + 1) % m.nnode x.1))

/-- Normal times length of a face given by its node numbers. -/
noncomputable def nlen (m : Mesh) (d : Fin 2) (p q : ℕ) : ℝ :=
  fNrm (m.coords p) (m.coords q) d * fLen (m.coords p) (m.coords q)

theorem nlen_odd (m : Mesh) (d : Fin 2) (p q : ℕ) : nlen m d q p = - nlen m d p q := by
  obtain ⟨h1, h2⟩ := C22_opposite (m.coords p) (m.coords q)
  unfold nlen; rw [h1, h2]; ring

/-- C22: in the face list produced by the topological pre-processing, for each cell the normals times
lengths, outward (minus for the faces of which the cell is the right cell), add to zero. -/
theorem C22_closed {m : Mesh} (hc : Conforming m) (hz : NoZeroFace m) {s : FState} (h : topological m = .ok s)
    {i : ℕ} (hi : i < m.nelem) (d : Fin 2) :
    (s.faces.map (signed (nlen m d) i)).sum = 0 := by
  rw [signed_sum_faces hc h (nlen_odd m d) hi, cellSum]
  let g : ℕ → ℝ := fun f => (![m.coords (m.inpoel i f) 1, - m.coords (m.inpoel i f) 0] : Fin 2 → ℝ) d
  rw [← cyclic_sum (m.nnode i) g]
  apply Finset.sum_congr rfl
  intro f hf
  rw [nlen, nrm_len (hz (i, f) ⟨hi, by simpa using hf⟩)]
  fin_cases d
  · simp [g]
  · simp [g]; ring

theorem exPart_nozero : NoZeroFace exPart := by
  have c0 : exPart.coords 0 = ![0, 0] := by simp [exPart, exMesh]
  have c1 : exPart.coords 1 = ![1, 0] := by simp [exPart, exMesh]
  have c2 : exPart.coords 2 = ![1, 1] := by simp [exPart, exMesh]
  have c3 : exPart.coords 3 = ![0, 1] := by simp [exPart, exMesh]
  have c4 : exPart.coords 4 = ![2, 0] := by simp [exPart, exMesh]
  rintro ⟨i, f⟩ ⟨hi, hf⟩
  have hi : i < 2 := hi
  obtain rfl | rfl : i = 0 ∨ i = 1 := by omega
  · have hf : f < 4 := hf
    obtain rfl | rfl | rfl | rfl : f = 0 ∨ f = 1 ∨ f = 2 ∨ f = 3 := by omega
    · show exPart.coords 0 ≠ exPart.coords 1; rw [c0, c1]; intro h; simpa using congrFun h 0
    · show exPart.coords 1 ≠ exPart.coords 2; rw [c1, c2]; intro h; simpa using congrFun h 1
    · show exPart.coords 2 ≠ exPart.coords 3; rw [c2, c3]; intro h; simpa using congrFun h 0
    · show exPart.coords 3 ≠ exPart.coords 0; rw [c3, c0]; intro h; simpa using congrFun h 1
  · have hf : f < 3 := hf
    obtain rfl | rfl | rfl : f = 0 ∨ f = 1 ∨ f = 2 := by omega
    · show exPart.coords 1 ≠ exPart.coords 4; rw [c1, c4]; intro h; simpa using congrFun h 0
    · show exPart.coords 4 ≠ exPart.coords 2; rw [c4, c2]; intro h; simpa using congrFun h 1
    · show exPart.coords 2 ≠ exPart.coords 1; rw [c2, c1]; intro h; simpa using congrFun h 1

/-- The example mesh (square, triangle, one interface face) meets all hypotheses of `C22_closed`. -/
example : ∃ s, topological exPart = .ok s ∧ s.faces.length = 6 ∧
    (s.faces.map (signed (nlen exPart 0) 1)).sum = 0 := by
  obtain ⟨s, hs, hf, _⟩ := exPart_topological
  exact ⟨s, hs, by rw [hf]; rfl, C22_closed exPart_conforming exPart_nozero hs (by show 1 < 2; decide) 0⟩

/-! ### C23: areas -/

/-- Specification: signed area of a closed polygon with vertices `x 0 … x (n-1)` (Gauss). -/
noncomputable def polyArea (n : ℕ) (x : ℕ → Fin 2 → ℝ) : ℝ :=
  (∑ f ∈ Finset.range n, (x f 0 * x ((f + 1) % n) 1 - x ((f + 1) % n) 0 * x f 1)) / 2

/-- C23: the stored area of a triangle or quadrilateral is the signed polygon area of its vertices. -/
theorem C23_polygon_area {m : Mesh} {i : ℕ} (h : m.nnode i = 3 ∨ m.nnode i = 4) :
    area m i = some (polyArea (m.nnode i) fun j => m.coords (m.inpoel i j)) := by
  rcases h with h | h
  · simp [area, h, polyArea, Finset.sum_range_succ, triArea]; ring
  · simp [area, h, polyArea, Finset.sum_range_succ, triArea]; ring

/-- C23: no area is assigned exactly for cells that are neither triangles nor quadrilaterals. -/
theorem C23_unset_iff {m : Mesh} {i : ℕ} : area m i = none ↔ m.nnode i ≠ 3 ∧ m.nnode i ≠ 4 := by
  unfold area
  by_cases h3 : m.nnode i = 3
  · simp [h3]
  · by_cases h4 : m.nnode i = 4
    · simp [h4]
    · simp [h3, h4]

/-- C23: the polygon area does not depend on the starting vertex. -/
theorem C23_rotation_start (n : ℕ) (x : ℕ → Fin 2 → ℝ) :
    polyArea n (fun j => x ((j + 1) % n)) = polyArea n x := by
  unfold polyArea
  congr 1
  let t : ℕ → ℝ := fun f => x (f % n) 0 * x ((f + 1) % n) 1 - x ((f + 1) % n) 0 * x (f % n) 1
  have h1 : ∀ f ∈ Finset.range n, (x ((f + 1) % n) 0 * x (((f + 1) % n + 1) % n) 1
      - x (((f + 1) % n + 1) % n) 0 * x ((f + 1) % n) 1) = t ((f + 1) % n) := by
    intro f _
    simp only [t, Nat.mod_mod]
  have h2 : ∀ f ∈ Finset.range n, (x f 0 * x ((f + 1) % n) 1 - x ((f + 1) % n) 0 * x f 1) = t f := by
    intro f hf
    simp only [t, Nat.mod_eq_of_lt (Finset.mem_range.1 hf)]
  rw [Finset.sum_congr rfl h1, Finset.sum_congr rfl h2]
  have := cyclic_sum n t
  rw [Finset.sum_sub_distrib] at this
  linarith

/-- C23: translation invariance. -/
theorem C23_translation (n : ℕ) (x : ℕ → Fin 2 → ℝ) (v : Fin 2 → ℝ) :
    polyArea n (fun j d => x j d + v d) = polyArea n x := by
  unfold polyArea
  congr 1
  rw [← sub_eq_zero, ← Finset.sum_sub_distrib]
  rw [← cyclic_sum n (fun f => v 0 * x f 1 - v 1 * x f 0)]
  apply Finset.sum_congr rfl
  intro f _
  ring

/-- C23: for triangles and quadrilaterals reversal of the vertex order changes the sign. -/
theorem C23_reversal (a b c d : Fin 2 → ℝ) : triArea c b a = - triArea a b c ∧
    triArea d c b + triArea d b a = - (triArea a b c + triArea a c d) := by
  constructor <;> (unfold triArea; ring)

/-- C23: a triangle's area is half the cross product of two sides: positive exactly for counter-clockwise
triangles, zero exactly for collinear vertices. -/
theorem C23_triangle_cross (a b c : Fin 2 → ℝ) :
    triArea a b c = ((b 0 - a 0) * (c 1 - a 1) - (b 1 - a 1) * (c 0 - a 0)) / 2 := by
  unfold triArea; ring

/-- C23: the area of a quadrilateral is half the cross product of its diagonals, hence does not depend on the
diagonal along which it is split; it is positive if the four corners turn left (convex, counter-clockwise). -/
theorem C23_quad (a b c d : Fin 2 → ℝ) :
    triArea a b c + triArea a c d = ((c 0 - a 0) * (d 1 - b 1) - (c 1 - a 1) * (d 0 - b 0)) / 2 ∧
    triArea a b c + triArea a c d = triArea b c d + triArea b d a ∧
    (0 < triArea a b c → 0 < triArea c d a → 0 < triArea a b c + triArea a c d) := by
  refine ⟨by unfold triArea; ring, by unfold triArea; ring, fun h1 h2 => ?_⟩
  have : triArea a c d = triArea c d a := by unfold triArea; ring
  linarith

/-- Midpoint of the face times normal times length: the face's contribution to the boundary integral of
`x·n`. -/
noncomputable def xn (m : Mesh) (p q : ℕ) : ℝ :=
  (m.coords p 0 + m.coords q 0) / 2 * nlen m 0 p q + (m.coords p 1 + m.coords q 1) / 2 * nlen m 1 p q

theorem xn_odd (m : Mesh) (p q : ℕ) : xn m q p = - xn m p q := by
  unfold xn; rw [nlen_odd m 0 p q, nlen_odd m 1 p q]; ring

theorem xn_cell {m : Mesh} (hz : NoZeroFace m) {i : ℕ} (hi : i < m.nelem) :
    cellSum m (xn m) i = 2 * polyArea (m.nnode i) fun j => m.coords (m.inpoel i j) := by
  unfold cellSum polyArea
  rw [mul_div_cancel₀ _ (two_ne_zero)]
  apply Finset.sum_congr rfl
  intro f hf
  have hne := hz (i, f) ⟨hi, by simpa using hf⟩
  simp only [xn, nlen]
  rw [nrm_len hne 0, nrm_len hne 1]
  simp
  ring

/-- C23 (divergence theorem): twice the area of each cell is the integral of `x·n` over its faces as they
are listed in the mesh's face list, outward. -/
theorem C23_divergence {m : Mesh} (hc : Conforming m) (hz : NoZeroFace m) {s : FState} (h : topological m = .ok s)
    {i : ℕ} (hi : i < m.nelem) (h34 : m.nnode i = 3 ∨ m.nnode i = 4) :
    ∃ A, area m i = some A ∧ (s.faces.map (signed (xn m) i)).sum = 2 * A := by
  refine ⟨_, C23_polygon_area h34, ?_⟩
  rw [signed_sum_faces hc h (xn_odd m) hi, xn_cell hz hi]

/-- C23: the cell areas add up to the area enclosed by the outer (boundary and interface) faces. -/
theorem C23_total {m : Mesh} (hc : Conforming m) (hz : NoZeroFace m) {s : FState} (h : topological m = .ok s) :
    2 * ∑ i ∈ Finset.range m.nelem, polyArea (m.nnode i) (fun j => m.coords (m.inpoel i j))
      = ((s.faces.filter fun F => m.nelem ≤ F.right).map fun F => xn m F.n0 F.n1).sum := by
  rw [← sum_cells_signed hc.lin hc.bfOk hc.cf h (xn m), Finset.mul_sum]
  apply Finset.sum_congr rfl
  intro i hi
  have hi' : i < m.nelem := by simpa using hi
  rw [signed_sum_faces hc h (xn_odd m) hi', xn_cell hz hi']

example : ∃ A, area exPart 0 = some A ∧ A = 1 := by
  refine ⟨_, C23_polygon_area (Or.inr rfl), ?_⟩
  have h4 : exPart.nnode 0 = 4 := rfl
  rw [h4]
  simp [polyArea, Finset.sum_range_succ, exPart, exMesh]

/-! ### C24: ghost centres -/

/-- Specification: `g` is the mirror image of `r` in the point `p`. -/
def PointMirror (p r g : Fin 2 → ℝ) : Prop := ∀ d, (r d + g d) / 2 = p d

/-- Specification: `g` is the mirror image of `r` in the line through `a` and `b`: the midpoint lies on the
line and the connection is perpendicular to it. -/
def LineMirror (a b r g : Fin 2 → ℝ) : Prop :=
  (∃ t : ℝ, ∀ d, (r d + g d) / 2 = a d + t * (b d - a d)) ∧
  (g 0 - r 0) * (b 0 - a 0) + (g 1 - r 1) * (b 1 - a 1) = 0

/-- C24: the ghost centre about the midpoint is the point reflection in the face midpoint. -/
theorem C24_midpoint (a b rc : Fin 2 → ℝ) : PointMirror (fun d => (a d + b d) / 2) rc (ghostMid a b rc) := by
  intro d; simp only [ghostMid]; ring

/-- C24: the ghost centre about the face is the reflection in the face line, provided each normal component
is either zero or larger than the code's threshold. -/
theorem C24_face_partial {a b rc : Fin 2 → ℝ} (h : a ≠ b)
    (hx : fNrm a b 0 = 0 ∨ aSmall < |fNrm a b 0|) (hy : fNrm a b 1 = 0 ∨ aSmall < |fNrm a b 1|) :
    LineMirror a b rc (ghostFace a b rc) := by
  have hp := fLen_pos h
  have hu := C22_unit h
  have hsm : (0 : ℝ) < aSmall := by unfold aSmall; norm_num
  have nx : fNrm a b 0 * fLen a b = b 1 - a 1 := by simpa using nrm_len h 0
  have ny : fNrm a b 1 * fLen a b = a 0 - b 0 := by simpa using nrm_len h 1
  by_cases hx0 : fNrm a b 0 = 0
  · have hb : b 1 - a 1 = 0 := by rw [← nx, hx0, zero_mul]
    have hc : ¬ (aSmall < |fNrm a b 0| ∧ aSmall < |fNrm a b 1|) := by
      rw [hx0, abs_zero]; rintro ⟨h1, _⟩; linarith
    have hc2 : |fNrm a b 0| ≤ aSmall := by rw [hx0, abs_zero]; exact hsm.le
    have hba : b 0 - a 0 ≠ 0 := by
      intro h0
      apply h; funext i; fin_cases i
      · simp; linarith
      · simp; linarith
    simp only [LineMirror, ghostFace, if_neg hc, if_pos hc2]
    refine ⟨⟨(rc 0 - a 0) / (b 0 - a 0), fun d => ?_⟩, ?_⟩
    · fin_cases d
      · simp; field_simp; ring
      · simp [hb]
    · simp [hb]; ring_nf; simp
  · have hx1 := hx.resolve_left hx0
    by_cases hy0 : fNrm a b 1 = 0
    · have hb : b 0 - a 0 = 0 := by have := ny; rw [hy0, zero_mul] at this; linarith
      have hc : ¬ (aSmall < |fNrm a b 0| ∧ aSmall < |fNrm a b 1|) := by
        rw [hy0, abs_zero]; rintro ⟨_, h1⟩; linarith
      have hc2 : ¬ |fNrm a b 0| ≤ aSmall := not_le.2 hx1
      have hba : b 1 - a 1 ≠ 0 := by
        intro h0
        apply h; funext i; fin_cases i
        · simp; linarith
        · simp; linarith
      simp only [LineMirror, ghostFace, if_neg hc, if_neg hc2]
      refine ⟨⟨(rc 1 - a 1) / (b 1 - a 1), fun d => ?_⟩, ?_⟩
      · fin_cases d
        · simp [hb]
        · simp; field_simp; ring
      · simp [hb]; ring_nf; simp
    · have hy1 := hy.resolve_left hy0
      have hdx : b 0 - a 0 ≠ 0 := by
        intro h0
        have : fNrm a b 1 * fLen a b = 0 := by rw [ny]; linarith
        rcases mul_eq_zero.1 this with h | h
        · exact hy0 h
        · exact hp.ne' h
      have hdy : b 1 - a 1 ≠ 0 := by
        intro h0
        rw [h0] at nx
        rcases mul_eq_zero.1 nx with h | h
        · exact hx0 h
        · exact hp.ne' h
      have hratio : fNrm a b 1 / fNrm a b 0 = - (b 0 - a 0) / (b 1 - a 1) := by
        rw [div_eq_div_iff hx0 hdy]
        have e1 : (b 1 - a 1) = fNrm a b 0 * fLen a b := nx.symm
        have e2 : (b 0 - a 0) = - (fNrm a b 1 * fLen a b) := by linarith
        rw [e1, e2]; ring
      simp only [LineMirror, ghostFace, if_pos (And.intro hx1 hy1), hratio]
      generalize ha0 : b 0 - a 0 = u at *
      generalize ha1 : b 1 - a 1 = w at *
      have hs : u ^ 2 + w ^ 2 ≠ 0 := by positivity
      have hden : w / u - -u / w ≠ 0 := by
        have : w / u - -u / w = (u ^ 2 + w ^ 2) / (u * w) := by field_simp; ring
        rw [this]; positivity
      set xs := (rc 1 - a 1 - -u / w * rc 0 + w / u * a 0) / (w / u - -u / w) with hxs
      have hxs' : xs * (u ^ 2 + w ^ 2) = (rc 1 - a 1) * (u * w) + u ^ 2 * rc 0 + w ^ 2 * a 0 := by
        rw [hxs, div_mul_eq_mul_div, div_eq_iff hden]
        field_simp
        ring
      refine ⟨⟨(xs - a 0) / u, fun d => ?_⟩, ?_⟩
      · fin_cases d
        · simp [ha0]; field_simp; ring
        · simp [ha1]; field_simp
      · simp
        field_simp
        linear_combination 2 * hxs'

/-- The reflection by formula. -/
noncomputable def refl (a b r : Fin 2 → ℝ) : Fin 2 → ℝ := fun d =>
  r d - 2 * ((r 0 - a 0) * fNrm a b 0 + (r 1 - a 1) * fNrm a b 1) * fNrm a b d

/-- The mirror image is unique and given by the reflection formula. -/
theorem lineMirror_iff {a b r g : Fin 2 → ℝ} (h : a ≠ b) : LineMirror a b r g ↔ g = refl a b r := by
  have hp := fLen_pos h
  have hu := C22_unit h
  have nx : b 1 = a 1 + fNrm a b 0 * fLen a b := by have := nrm_len h 0; simp at this; linarith
  have ny : b 0 = a 0 - fNrm a b 1 * fLen a b := by have := nrm_len h 1; simp at this; linarith
  constructor
  · rintro ⟨⟨t, ht⟩, hperp⟩
    have e0 := ht 0
    have e1 := ht 1
    rw [ny] at e0 hperp
    rw [nx] at e1 hperp
    have P : -(g 0 - r 0) * fNrm a b 1 + (g 1 - r 1) * fNrm a b 0 = 0 := by
      have : fLen a b * (-(g 0 - r 0) * fNrm a b 1 + (g 1 - r 1) * fNrm a b 0) = 0 := by
        rw [← hperp]; ring
      exact (mul_eq_zero.1 this).resolve_left hp.ne'
    funext d
    simp only [refl]
    fin_cases d
    · show g 0 = r 0 - 2 * _ * fNrm a b 0
      linear_combination -(g 0 - r 0) * hu - fNrm a b 1 * P + 2 * fNrm a b 0 ^ 2 * e0
        + 2 * fNrm a b 0 * fNrm a b 1 * e1
    · show g 1 = r 1 - 2 * _ * fNrm a b 1
      linear_combination -(g 1 - r 1) * hu + fNrm a b 0 * P + 2 * fNrm a b 0 * fNrm a b 1 * e0
        + 2 * fNrm a b 1 ^ 2 * e1
  · rintro rfl
    refine ⟨⟨(-(r 0 - a 0) * fNrm a b 1 + (r 1 - a 1) * fNrm a b 0) / fLen a b, fun d => ?_⟩, ?_⟩
    · fin_cases d
      · show (r 0 + refl a b r 0) / 2 = a 0 + _ * (b 0 - a 0)
        rw [ny]
        simp only [refl]
        field_simp
        linear_combination (-2 * (r 0 - a 0)) * fLen a b * hu
      · show (r 1 + refl a b r 1) / 2 = a 1 + _ * (b 1 - a 1)
        rw [nx]
        simp only [refl]
        field_simp
        linear_combination (-2 * (r 1 - a 1)) * fLen a b * hu
    · rw [nx, ny]
      simp only [refl]
      ring

/-- C24: in all cases (also when a normal component is below the threshold but not zero) the ghost centre
differs from the mirror image by at most twice the threshold times the distance of the cell centre. -/
theorem C24_face_error {a b rc : Fin 2 → ℝ} (h : a ≠ b) (d : Fin 2) :
    |ghostFace a b rc d - refl a b rc d| ≤ 2 * aSmall * (|rc 0 - a 0| + |rc 1 - a 1|) := by
  have hu := C22_unit h
  have hsm : (0 : ℝ) < aSmall := by unfold aSmall; norm_num
  have hr : 0 ≤ 2 * aSmall * (|rc 0 - a 0| + |rc 1 - a 1|) := by positivity
  have key : ∀ (n0 n1 u v : ℝ), n0 ^ 2 + n1 ^ 2 = 1 → |n0| ≤ aSmall →
      |2 * (u * n0 + v * n1) * n0| ≤ 2 * aSmall * (|u| + |v|) ∧
      |-(2 * v) + 2 * (u * n0 + v * n1) * n1| ≤ 2 * aSmall * (|u| + |v|) := by
    intro n0 n1 u v h1 h2
    have a0 : |n0| ≤ 1 := abs_le_one_iff_mul_self_le_one.2 (by nlinarith)
    have a1 : |n1| ≤ 1 := abs_le_one_iff_mul_self_le_one.2 (by nlinarith)
    have hS : |u * n0 + v * n1| ≤ |u| + |v| := by
      refine (abs_add_le _ _).trans ?_
      rw [abs_mul, abs_mul]
      nlinarith [abs_nonneg u, abs_nonneg v]
    constructor
    · rw [abs_mul, abs_mul, abs_two]
      nlinarith [abs_nonneg u, abs_nonneg v, abs_nonneg n0, abs_nonneg (u * n0 + v * n1)]
    · have : -(2 * v) + 2 * (u * n0 + v * n1) * n1 = 2 * n0 * (u * n1 - v * n0) := by
        linear_combination 2 * v * h1
      rw [this, abs_mul, abs_mul, abs_two]
      have hT : |u * n1 - v * n0| ≤ |u| + |v| := by
        refine (abs_sub _ _).trans ?_
        rw [abs_mul, abs_mul]
        nlinarith [abs_nonneg u, abs_nonneg v]
      nlinarith [abs_nonneg u, abs_nonneg v, abs_nonneg n0, abs_nonneg (u * n1 - v * n0)]
  by_cases hx : aSmall < |fNrm a b 0|
  · by_cases hy : aSmall < |fNrm a b 1|
    · have := (lineMirror_iff h).1 (C24_face_partial (rc := rc) h (Or.inr hx) (Or.inr hy))
      rw [this, sub_self, abs_zero]; exact hr
    · have hc : ¬ (aSmall < |fNrm a b 0| ∧ aSmall < |fNrm a b 1|) := fun h => hy h.2
      obtain ⟨k1, k2⟩ := key (fNrm a b 1) (fNrm a b 0) (rc 1 - a 1) (rc 0 - a 0) (by linarith) (not_lt.1 hy)
      rw [add_comm |rc 1 - a 1|] at k1 k2
      fin_cases d
      · refine le_of_eq_of_le ?_ k2
        simp only [ghostFace, if_neg hc, if_neg (not_le.2 hx), refl]
        simp [-abs_mul]
        congr 1; ring
      · refine le_of_eq_of_le ?_ k1
        simp only [ghostFace, if_neg hc, if_neg (not_le.2 hx), refl]
        simp [-abs_mul]
        congr 1; ring
  · have hc : ¬ (aSmall < |fNrm a b 0| ∧ aSmall < |fNrm a b 1|) := fun h => hx h.1
    obtain ⟨k1, k2⟩ := key (fNrm a b 0) (fNrm a b 1) (rc 0 - a 0) (rc 1 - a 1) hu (not_lt.1 hx)
    fin_cases d
    · refine le_of_eq_of_le ?_ k1
      simp only [ghostFace, if_neg hc, if_pos (not_lt.1 hx), refl]
      simp [-abs_mul]
      congr 1; ring
    · refine le_of_eq_of_le ?_ k2
      simp only [ghostFace, if_neg hc, if_pos (not_lt.1 hx), refl]
      simp [-abs_mul]
      congr 1; ring

/-- C24: below the threshold the ghost centre is not exactly the mirror image: a face inclined by `1e-12`. -/
theorem C24_small_angle_refuted : ∃ a b rc : Fin 2 → ℝ, a ≠ b ∧ ¬ LineMirror a b rc (ghostFace a b rc) := by
  refine ⟨![0, 0], ![1, 1e-12], ![0, 1], ?_, ?_⟩
  · intro h; simpa using congrFun h 0
  · have hlen : 1 ≤ fLen (![0, 0] : Fin 2 → ℝ) ![1, 1e-12] := by
      unfold fLen
      rw [Real.one_le_sqrt]
      simp; positivity
    have hx : |fNrm (![0, 0] : Fin 2 → ℝ) ![1, 1e-12] 0| ≤ aSmall := by
      simp only [fNrm, Matrix.cons_val_zero, Matrix.cons_val_one, sub_zero]
      rw [abs_div, abs_of_pos (show (0 : ℝ) < fLen _ _ by linarith), div_le_iff₀ (by linarith), aSmall]
      rw [abs_of_pos (by norm_num)]
      nlinarith
    have hc : ¬ (aSmall < |fNrm (![0, 0] : Fin 2 → ℝ) ![1, 1e-12] 0| ∧ aSmall < |fNrm (![0, 0] : Fin 2 → ℝ) ![1, 1e-12] 1|) :=
      fun h => absurd h.1 (not_lt.2 hx)
    rintro ⟨_, hperp⟩
    simp only [ghostFace, if_neg hc, if_pos hx] at hperp
    norm_num at hperp

/-- A case of `C24_face` in the general branch: the face from (0,0) to (1,1). -/
example : ghostFace ![0, 0] ![1, 1] ![1, 0] = ![0, 1] ∨ ¬ (aSmall < |fNrm (![0, 0] : Fin 2 → ℝ) ![1, 1] 0|) := by
  have h : (![0, 0] : Fin 2 → ℝ) ≠ ![1, 1] := fun h => by simpa using congrFun h 0
  by_cases hx : aSmall < |fNrm (![0, 0] : Fin 2 → ℝ) ![1, 1] 0|
  · left
    have hy : aSmall < |fNrm (![0, 0] : Fin 2 → ℝ) ![1, 1] 1| := by
      have : fNrm (![0, 0] : Fin 2 → ℝ) ![1, 1] 1 = - fNrm (![0, 0] : Fin 2 → ℝ) ![1, 1] 0 := by
        simp [fNrm]; ring
      rw [this, abs_neg]; exact hx
    rw [(lineMirror_iff h).1 (C24_face_partial (rc := ![1, 0]) h (Or.inr hx) (Or.inr hy))]
    have hm : LineMirror ![0, 0] ![1, 1] ![1, 0] ![0, 1] :=
      ⟨⟨1 / 2, fun d => by fin_cases d <;> simp⟩, by simp⟩
    rw [← (lineMirror_iff h).1 hm]
  · exact Or.inr hx

end Msh
end FVENS
