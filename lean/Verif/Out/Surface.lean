import Verif.Phys.Props
import Verif.Mesh.Geom

/-!
# Surface data and force coefficients (model of `FlowFV_base::computeSurfaceData`)

Each process sums over its own wall faces; the sums are added over the processes and divided by the
total length of the wall.
-/

namespace FVENS
namespace Out
open Msh

/-- What the loop reads at one physical boundary face, src/spatial/flow_spatial.cpp:156-198: marker, unit normal (out of the flow domain),
length, conserved state and gradient of the cell. -/
structure WallFace where
  tag : ℤ
  n : V2
  len : ℝ
  u : St
  grad : Fin 2 → St

/-- Running totals `totalarea, Cl, Cdp, Cdf`, src/spatial/flow_spatial.cpp:141-142. -/
@[ext] structure Sums where
  area : ℝ
  cl : ℝ
  cdp : ℝ
  cdf : ℝ

/-- Direction of the free stream and its normal, src/spatial/flow_spatial.cpp:138, 150-151. -/
noncomputable def windDir (aoa : ℝ) : V2 := Gas.windVector aoa 0
noncomputable def windNormal (aoa : ℝ) : V2 := ![-(windDir aoa 1), windDir aoa 0]

/-- Velocity gradient `gradu[i][j]`, src/spatial/flow_spatial.cpp:229-233. -/
noncomputable def gradu (F : WallFace) (i j : Fin 2) : ℝ :=
  (F.grad j (vix i) * F.u 0 - F.u (vix i) * F.grad j 0) / (F.u 0 * F.u 0)

/-- `force`, src/spatial/flow_spatial.cpp:239-247. -/
noncomputable def shearForce (F : WallFace) : V2 := fun i =>
  0 + (gradu F i 0 + gradu F 0 i) * F.n 0 + (gradu F i 1 + gradu F 1 i) * F.n 1

/-- `tangf`, src/spatial/flow_spatial.cpp:165-166. -/
def tang (n : V2) : V2 := ![n 1, -(n 0)]

/-- Pressure coefficient, src/spatial/flow_spatial.cpp:205. -/
noncomputable def cp (g : Gas) (F : WallFace) : ℝ := (g.pressure F.u - g.freestreamPressure) * 2

/-- Skin-friction coefficient, src/spatial/flow_spatial.cpp:226, 252-255. -/
noncomputable def cf (g : Gas) (F : WallFace) : ℝ := 2 * (g.viscosityC F.u * dot (shearForce F) (tang F.n))

/-- Loop body for a face with the marker, src/spatial/flow_spatial.cpp:285-295. -/
noncomputable def addWall (g : Gas) (aoa : ℝ) (F : WallFace) (s : Sums) : Sums where
  area := s.area + F.len
  cl := s.cl + cp g F * dot F.n (windNormal aoa) * F.len
  cdp := s.cdp + cp g F * dot F.n (windDir aoa) * F.len
  cdf := s.cdf + cf g F * dot (tang F.n) (windDir aoa) * F.len

/-- Loop over the boundary faces of a process, src/spatial/flow_spatial.cpp:155-300. -/
noncomputable def localSums (g : Gas) (aoa : ℝ) (marker : ℤ) (faces : List WallFace) : Sums :=
  faces.foldl (fun s F => if F.tag = marker then addWall g aoa F s else s) ⟨0, 0, 0, 0⟩

/-- Rows of `output` written, within `cap` rows; writing further is undefined (`none`), src/spatial/flow_spatial.cpp:140, 158-179, 205,
255, 298. -/
noncomputable def rows (g : Gas) (marker : ℤ) (cap : ℕ) (faces : List WallFace) : Option (List (ℝ × ℝ)) :=
  faces.foldlM (fun (out : List (ℝ × ℝ)) F => if F.tag = marker then (if out.length < cap then some (out ++ [(cp g F, cf g F)]) else none)
    else some out) []

/-- `MPI_Allreduce` of the sums and division by the total, src/spatial/flow_spatial.cpp:302-309: `Cl`, `Cdp`, `Cdf`. Without any face
of the marker the division is `0/0` (`none`). -/
noncomputable def coefficients (g : Gas) (aoa : ℝ) (marker : ℤ) (ranks : List (List WallFace)) : Option (ℝ × ℝ × ℝ) :=
  let s := ranks.map (localSums g aoa marker)
  let A := (s.map (·.area)).sum
  if A = 0 then none else some ((s.map (·.cl)).sum / A, (s.map (·.cdp)).sum / A, (s.map (·.cdf)).sum / A)

/-! ### Specification -/

/-- Faces of the wall. -/
def wall (marker : ℤ) (ranks : List (List WallFace)) : List WallFace := ranks.flatten.filter fun F => F.tag = marker

/-- Length of the wall. -/
noncomputable def wallLen (w : List WallFace) : ℝ := (w.map fun F => F.len).sum

/-- Force of the relative pressure on the body, per dynamic pressure: the normals point out of the flow domain, into the body. -/
noncomputable def pressureForce (g : Gas) (w : List WallFace) (d : Fin 2) : ℝ :=
  (w.map fun F => 2 * (g.pressure F.u - g.freestreamPressure) * F.n d * F.len).sum

/-- Newtonian stress for velocity gradient `L i j = ∂_j v_i` (Stokes hypothesis). -/
noncomputable def stress (mu : ℝ) (L : Fin 2 → Fin 2 → ℝ) (i j : Fin 2) : ℝ :=
  mu * (L i j + L j i) - if i = j then 2 / 3 * mu * (L 0 0 + L 1 1) else 0

/-- Gradient of the velocity from conserved variables, by the quotient rule. -/
noncomputable def velGrad (F : WallFace) (i j : Fin 2) : ℝ :=
  F.grad j (vix i) / F.u 0 - F.u (vix i) * F.grad j 0 / F.u 0 ^ 2

/-- Viscous force of the fluid on the body per area: minus the stress applied to the normal out of the fluid. -/
noncomputable def traction (mu : ℝ) (F : WallFace) (i : Fin 2) : ℝ :=
  -(stress mu (velGrad F) i 0 * F.n 0 + stress mu (velGrad F) i 1 * F.n 1)

/-- Tangential part of a vector. -/
noncomputable def tangential (n v : V2) (i : Fin 2) : ℝ := v i - (v 0 * n 0 + v 1 * n 1) * n i

/-- Skin-friction force on the body, per dynamic pressure. -/
noncomputable def frictionForce (g : Gas) (w : List WallFace) (d : Fin 2) : ℝ :=
  (w.map fun F => 2 * tangential F.n (traction (g.viscosityC F.u) F) d * F.len).sum

/-- Unit normals. -/
def Unit (w : List WallFace) : Prop := ∀ F ∈ w, F.n 0 ^ 2 + F.n 1 ^ 2 = 1

/-! ### Proofs -/

theorem localSums_eq (g : Gas) (aoa : ℝ) (marker : ℤ) (faces : List WallFace) :
    localSums g aoa marker faces = ⟨((faces.filter fun F => F.tag = marker).map fun F => F.len).sum,
      ((faces.filter fun F => F.tag = marker).map fun F => cp g F * dot F.n (windNormal aoa) * F.len).sum,
      ((faces.filter fun F => F.tag = marker).map fun F => cp g F * dot F.n (windDir aoa) * F.len).sum,
      ((faces.filter fun F => F.tag = marker).map fun F => cf g F * dot (tang F.n) (windDir aoa) * F.len).sum⟩ := by
  induction faces using List.reverseRecOn with
  | nil => simp [localSums]
  | append_singleton l F ih =>
    rw [localSums, List.foldl_append, ← localSums, ih, List.filter_append]
    by_cases h : F.tag = marker
    · simp [h, addWall]
    · simp [h]

theorem sum_ranks (marker : ℤ) (ranks : List (List WallFace)) (f : WallFace → ℝ) :
    (ranks.map fun r => ((r.filter fun F => F.tag = marker).map f).sum).sum = ((wall marker ranks).map f).sum := by
  unfold wall
  induction ranks with
  | nil => simp
  | cons r rs ih => simp [ih]

theorem coefficients_eq (g : Gas) (aoa : ℝ) (marker : ℤ) (ranks : List (List WallFace)) :
    coefficients g aoa marker ranks = if wallLen (wall marker ranks) = 0 then none else
      some (((wall marker ranks).map fun F => cp g F * dot F.n (windNormal aoa) * F.len).sum / wallLen (wall marker ranks),
        ((wall marker ranks).map fun F => cp g F * dot F.n (windDir aoa) * F.len).sum / wallLen (wall marker ranks),
        ((wall marker ranks).map fun F => cf g F * dot (tang F.n) (windDir aoa) * F.len).sum / wallLen (wall marker ranks)) := by
  have h1 := sum_ranks marker ranks fun F => F.len
  have h2 := sum_ranks marker ranks fun F => cp g F * dot F.n (windNormal aoa) * F.len
  have h3 := sum_ranks marker ranks fun F => cp g F * dot F.n (windDir aoa) * F.len
  have h4 := sum_ranks marker ranks fun F => cf g F * dot (tang F.n) (windDir aoa) * F.len
  unfold coefficients wallLen
  simp only [List.map_map, Function.comp_def, localSums_eq]
  rw [h1, h2, h3, h4]

/-- C69: the coefficients do not depend on how the faces are numbered or distributed to processes. -/
theorem C69_distribution (g : Gas) (aoa : ℝ) (marker : ℤ) {ranks ranks' : List (List WallFace)}
    (h : ranks.flatten.Perm ranks'.flatten) : coefficients g aoa marker ranks = coefficients g aoa marker ranks' := by
  have hw : (wall marker ranks).Perm (wall marker ranks') := h.filter _
  rw [coefficients_eq, coefficients_eq, wallLen, wallLen, (hw.map _).sum_eq, (hw.map _).sum_eq, (hw.map _).sum_eq, (hw.map _).sum_eq]

theorem wind_unit (aoa : ℝ) : windDir aoa 0 = Real.cos aoa ∧ windDir aoa 1 = Real.sin aoa := by
  simp [windDir, Gas.windVector]

theorem sum_lin (w : List WallFace) (f f' : WallFace → ℝ) (a b : ℝ) :
    (w.map fun F => a * f F + b * f' F).sum = a * (w.map f).sum + b * (w.map f').sum := by
  induction w with
  | nil => simp
  | cons F w ih => simp [ih]; ring

/-- C69: lift and pressure drag are the components of the pressure force on the body normal to and along the free stream, divided by the
length of the wall. -/
theorem C69_pressure (g : Gas) (aoa : ℝ) (marker : ℤ) (ranks : List (List WallFace)) (hA : wallLen (wall marker ranks) ≠ 0) :
    ∃ cdf, coefficients g aoa marker ranks = some (
      (pressureForce g (wall marker ranks) 1 * Real.cos aoa - pressureForce g (wall marker ranks) 0 * Real.sin aoa) / wallLen (wall marker ranks),
      (pressureForce g (wall marker ranks) 0 * Real.cos aoa + pressureForce g (wall marker ranks) 1 * Real.sin aoa) / wallLen (wall marker ranks),
      cdf) := by
  refine ⟨((wall marker ranks).map fun F => cf g F * dot (tang F.n) (windDir aoa) * F.len).sum / wallLen (wall marker ranks), ?_⟩
  rw [coefficients_eq, if_neg hA]
  have h1 : ∀ a b : ℝ, a * pressureForce g (wall marker ranks) 0 + b * pressureForce g (wall marker ranks) 1 =
      ((wall marker ranks).map fun F => cp g F * (F.n 0 * a + F.n 1 * b) * F.len).sum := by
    intro a b
    unfold pressureForce
    rw [← sum_lin]
    congr 1
    apply List.map_congr_left
    intro F _
    unfold cp; ring
  congr 1
  refine Prod.ext ?_ (Prod.ext ?_ rfl)
  · simp only []
    congr 1
    rw [show pressureForce g (wall marker ranks) 1 * Real.cos aoa - pressureForce g (wall marker ranks) 0 * Real.sin aoa =
      (-Real.sin aoa) * pressureForce g (wall marker ranks) 0 + Real.cos aoa * pressureForce g (wall marker ranks) 1 by ring, h1]
    simp [dot, windNormal, wind_unit]
  · simp only []
    congr 1
    rw [mul_comm _ (Real.cos aoa), mul_comm _ (Real.sin aoa), h1]
    simp [dot, wind_unit]

/-- C69: uniform pressure on a wall whose normals times lengths add to zero gives neither lift nor pressure drag. -/
theorem C69_uniform_pressure (g : Gas) (aoa : ℝ) (marker : ℤ) (ranks : List (List WallFace)) (hA : wallLen (wall marker ranks) ≠ 0)
    {p : ℝ} (hp : ∀ F ∈ wall marker ranks, g.pressure F.u = p)
    (hc : ∀ d, ((wall marker ranks).map fun F => F.n d * F.len).sum = 0) :
    ∃ cdf, coefficients g aoa marker ranks = some (0, 0, cdf) := by
  obtain ⟨cdf, h⟩ := C69_pressure g aoa marker ranks hA
  have h0 : ∀ d, pressureForce g (wall marker ranks) d = 0 := by
    intro d
    have : pressureForce g (wall marker ranks) d = ((wall marker ranks).map fun F => (2 * (p - g.freestreamPressure)) * (F.n d * F.len) + 0 * F.len).sum := by
      unfold pressureForce
      congr 1
      apply List.map_congr_left
      intro F hF
      rw [hp F hF]; ring
    rw [this, sum_lin, hc]; ring
  refine ⟨cdf, ?_⟩
  rw [h, h0, h0]
  simp

/-- The faces of a closed polygon with corners `x`, in any order, with unit normals and lengths as computed by the mesh class. -/
def Polygon (w : List WallFace) : Prop := ∃ (N : ℕ) (x : ℕ → V2), (∀ i, i < N → x i ≠ x ((i + 1) % N)) ∧
  (w.map fun F => (F.n, F.len)).Perm ((List.range N).map fun i => (fNrm (x i) (x ((i + 1) % N)), fLen (x i) (x ((i + 1) % N))))

theorem Polygon.closed {w : List WallFace} (h : Polygon w) (d : Fin 2) : (w.map fun F => F.n d * F.len).sum = 0 := by
  obtain ⟨N, x, hne, hp⟩ := h
  have h1 : (w.map fun F => F.n d * F.len) = (w.map fun F => (F.n, F.len)).map fun q => q.1 d * q.2 := by
    simp [List.map_map, Function.comp_def]
  rw [h1, (hp.map _).sum_eq, List.map_map]
  have h2 : ((List.range N).map ((fun q : V2 × ℝ => q.1 d * q.2) ∘ fun i => (fNrm (x i) (x ((i + 1) % N)), fLen (x i) (x ((i + 1) % N))))).sum =
      ∑ i ∈ Finset.range N, ((fun k => (![x k 1, -(x k 0)] : V2) d) ((i + 1) % N) - (fun k => (![x k 1, -(x k 0)] : V2) d) i) := by
    rw [Finset.sum_range, ← List.sum_ofFn]
    congr 1
    apply List.ext_getElem (by simp)
    intro i hi hi'
    simp only [List.getElem_map, List.getElem_range, List.getElem_ofFn, Function.comp]
    rw [nrm_len (hne i (by simpa using hi))]
    fin_cases d
    · simp
    · simp; ring
  rw [h2]
  exact cyclic_sum N fun k => (![x k 1, -(x k 0)] : V2) d

/-- C69: uniform pressure on a closed polygon gives no force. -/
theorem C69_closed_surface (g : Gas) (aoa : ℝ) (marker : ℤ) (ranks : List (List WallFace)) (hA : wallLen (wall marker ranks) ≠ 0)
    (hw : Polygon (wall marker ranks)) {p : ℝ} (hp : ∀ F ∈ wall marker ranks, g.pressure F.u = p) :
    ∃ cdf, coefficients g aoa marker ranks = some (0, 0, cdf) :=
  C69_uniform_pressure g aoa marker ranks hA hp hw.closed

/-! ### Rotation -/

/-- Rotation of the plane by the angle with cosine `c` and sine `s`. -/
def rot (c s : ℝ) (v : V2) : V2 := ![c * v 0 - s * v 1, s * v 0 + c * v 1]

/-- The same situation seen in a rotated frame: normal, momentum and gradients are rotated. -/
def WallFace.rot (c s : ℝ) (F : WallFace) : WallFace where
  tag := F.tag
  n := Out.rot c s F.n
  len := F.len
  u := ![F.u 0, c * F.u 1 - s * F.u 2, s * F.u 1 + c * F.u 2, F.u 3]
  grad := fun j => fun v => (![
    Out.rot c s (fun k => F.grad k 0) j,
    c * Out.rot c s (fun k => F.grad k 1) j - s * Out.rot c s (fun k => F.grad k 2) j,
    s * Out.rot c s (fun k => F.grad k 1) j + c * Out.rot c s (fun k => F.grad k 2) j,
    Out.rot c s (fun k => F.grad k 3) j] : St) v

theorem rot_dot {c s : ℝ} (h : c ^ 2 + s ^ 2 = 1) (a b : V2) : dot (rot c s a) (rot c s b) = dot a b := by
  simp only [dot, rot, Matrix.cons_val_zero, Matrix.cons_val_one]
  linear_combination (a 0 * b 0 + a 1 * b 1) * h

theorem rot_pressure (g : Gas) {c s : ℝ} (h : c ^ 2 + s ^ 2 = 1) (F : WallFace) : g.pressure (F.rot c s).u = g.pressure F.u := by
  have h1 : dot (mom (F.rot c s).u) (mom (F.rot c s).u) = dot (mom F.u) (mom F.u) := by
    simp only [dot, mom, WallFace.rot, Matrix.cons_val_zero, Matrix.cons_val_one, Matrix.cons_val]
    linear_combination (F.u 1 ^ 2 + F.u 2 ^ 2) * h
  unfold Gas.pressure
  rw [h1]
  rfl

theorem rot_tang (c s : ℝ) (n : V2) : tang (rot c s n) = rot c s (tang n) := by
  funext d
  fin_cases d <;> simp [tang, rot] <;> ring

theorem rot_gradu (c s : ℝ) (F : WallFace) :
    gradu (F.rot c s) 0 0 = c * (c * gradu F 0 0 - s * gradu F 0 1) - s * (c * gradu F 1 0 - s * gradu F 1 1) ∧
    gradu (F.rot c s) 0 1 = c * (s * gradu F 0 0 + c * gradu F 0 1) - s * (s * gradu F 1 0 + c * gradu F 1 1) ∧
    gradu (F.rot c s) 1 0 = s * (c * gradu F 0 0 - s * gradu F 0 1) + c * (c * gradu F 1 0 - s * gradu F 1 1) ∧
    gradu (F.rot c s) 1 1 = s * (s * gradu F 0 0 + c * gradu F 0 1) + c * (s * gradu F 1 0 + c * gradu F 1 1) := by
  unfold gradu
  simp only [WallFace.rot, Out.rot, vix, Matrix.cons_val_zero, Matrix.cons_val_one, Matrix.cons_val]
  refine ⟨?_, ?_, ?_, ?_⟩ <;> ring

theorem rot_shear {c s : ℝ} (h : c ^ 2 + s ^ 2 = 1) (F : WallFace) : shearForce (F.rot c s) = rot c s (shearForce F) := by
  obtain ⟨h00, h01, h10, h11⟩ := rot_gradu c s F
  have hn0 : (F.rot c s).n 0 = c * F.n 0 - s * F.n 1 := by simp [WallFace.rot, Out.rot]
  have hn1 : (F.rot c s).n 1 = s * F.n 0 + c * F.n 1 := by simp [WallFace.rot, Out.rot]
  funext d
  fin_cases d
  · simp only [shearForce, rot, Fin.zero_eta, Fin.isValue, Matrix.cons_val_zero, h00, h01, h10, hn0, hn1]
    linear_combination ((c * (2 * gradu F 0 0) - s * (gradu F 0 1 + gradu F 1 0)) * F.n 0 +
      (c * (gradu F 0 1 + gradu F 1 0) - s * (2 * gradu F 1 1)) * F.n 1) * h
  · simp only [shearForce, rot, Fin.mk_one, Fin.isValue, Matrix.cons_val_one, Matrix.cons_val_zero, h01, h10, h11, hn0, hn1]
    linear_combination ((s * (2 * gradu F 0 0) + c * (gradu F 0 1 + gradu F 1 0)) * F.n 0 +
      (s * (gradu F 0 1 + gradu F 1 0) + c * (2 * gradu F 1 1)) * F.n 1) * h

theorem rot_wind (t aoa : ℝ) : windDir (aoa + t) = rot (Real.cos t) (Real.sin t) (windDir aoa) ∧
    windNormal (aoa + t) = rot (Real.cos t) (Real.sin t) (windNormal aoa) := by
  constructor <;> funext d <;> fin_cases d <;>
    simp [windNormal, rot, wind_unit, Real.cos_add, Real.sin_add] <;> ring

/-- C69: rotating geometry, flow field and free stream together by any angle leaves the coefficients unchanged. -/
theorem C69_rotation (g : Gas) (aoa t : ℝ) (marker : ℤ) (ranks : List (List WallFace)) :
    coefficients g (aoa + t) marker (ranks.map fun r => r.map (WallFace.rot (Real.cos t) (Real.sin t))) = coefficients g aoa marker ranks := by
  have hcs : Real.cos t ^ 2 + Real.sin t ^ 2 = 1 := Real.cos_sq_add_sin_sq t
  have hw : wall marker (ranks.map fun r => r.map (WallFace.rot (Real.cos t) (Real.sin t))) =
      (wall marker ranks).map (WallFace.rot (Real.cos t) (Real.sin t)) := by
    unfold wall
    rw [← List.map_flatten, List.filter_map]
    rfl
  have hcp : ∀ F, cp g (F.rot (Real.cos t) (Real.sin t)) = cp g F := fun F => by unfold cp; rw [rot_pressure g hcs]
  have hcf : ∀ F, cf g (F.rot (Real.cos t) (Real.sin t)) = cf g F := fun F => by
    have hv : g.viscosityC (F.rot (Real.cos t) (Real.sin t)).u = g.viscosityC F.u := by
      unfold Gas.viscosityC Gas.temperatureC
      rw [rot_pressure g hcs]; rfl
    unfold cf
    rw [rot_shear hcs, show (F.rot (Real.cos t) (Real.sin t)).n = rot (Real.cos t) (Real.sin t) F.n from rfl, rot_tang, rot_dot hcs, hv]
  obtain ⟨hd, hn⟩ := rot_wind t aoa
  rw [coefficients_eq, coefficients_eq, hw, wallLen, wallLen, List.map_map, List.map_map, List.map_map, List.map_map, hd, hn]
  have e1 : ((fun F : WallFace => F.len) ∘ WallFace.rot (Real.cos t) (Real.sin t)) = fun F => F.len := rfl
  have e2 : ∀ v, ((fun F : WallFace => cp g F * dot F.n (rot (Real.cos t) (Real.sin t) v) * F.len) ∘ WallFace.rot (Real.cos t) (Real.sin t)) =
      fun F => cp g F * dot F.n v * F.len := by
    intro v; funext F
    simp only [Function.comp, hcp]
    rw [show (F.rot (Real.cos t) (Real.sin t)).n = rot (Real.cos t) (Real.sin t) F.n from rfl, rot_dot hcs]; rfl
  have e3 : ∀ v, ((fun F : WallFace => cf g F * dot (tang F.n) (rot (Real.cos t) (Real.sin t) v) * F.len) ∘ WallFace.rot (Real.cos t) (Real.sin t)) =
      fun F => cf g F * dot (tang F.n) v * F.len := by
    intro v; funext F
    simp only [Function.comp, hcf]
    rw [show (F.rot (Real.cos t) (Real.sin t)).n = rot (Real.cos t) (Real.sin t) F.n from rfl, rot_tang, rot_dot hcs]; rfl
  rw [e1, e2, e2, e3]

/-- The face with its normal reversed. -/
def WallFace.rev (F : WallFace) : WallFace := { F with n := fun d => - F.n d }

/-- C69: reversing all normals reverses all forces. -/
theorem C69_reversal (g : Gas) (aoa : ℝ) (marker : ℤ) (ranks : List (List WallFace)) :
    coefficients g aoa marker (ranks.map fun r => r.map WallFace.rev) =
      (coefficients g aoa marker ranks).map fun q => (-q.1, -q.2.1, -q.2.2) := by
  have hw : wall marker (ranks.map fun r => r.map WallFace.rev) = (wall marker ranks).map WallFace.rev := by
    unfold wall
    rw [← List.map_flatten, List.filter_map]
    rfl
  have hneg : ∀ (f : WallFace → ℝ), (∀ F : WallFace, f F.rev = - f F) → 
      ((wall marker ranks).map (f ∘ WallFace.rev)).sum = -((wall marker ranks).map f).sum := by
    intro f h
    induction wall marker ranks with
    | nil => simp
    | cons F w ih => simp only [List.map_cons, List.sum_cons, Function.comp, h] at ih ⊢; rw [ih]; ring
  have hcf : ∀ F : WallFace, cf g F.rev = cf g F := by
    intro F
    simp only [cf, shearForce, gradu, tang, dot, WallFace.rev, Matrix.cons_val_zero, Matrix.cons_val_one]
    ring
  have hcp : ∀ F : WallFace, cp g F.rev = cp g F := fun F => rfl
  rw [coefficients_eq, coefficients_eq, hw, wallLen, wallLen, List.map_map, List.map_map, List.map_map, List.map_map,
    show ((fun F : WallFace => F.len) ∘ WallFace.rev) = fun F => F.len from rfl, hneg, hneg, hneg]
  · split_ifs
    · rfl
    · simp [neg_div]
  · intro F; rw [hcf]; simp only [dot, tang, WallFace.rev, Matrix.cons_val_zero, Matrix.cons_val_one]; ring
  · intro F; rw [hcp]; simp only [dot, WallFace.rev]; ring
  · intro F; rw [hcp]; simp only [dot, WallFace.rev]; ring

/-! ### Sign of the friction drag -/

/-- C69 (part): the friction coefficient returned is *minus* the component along the free stream of the skin-friction force on the body.
Missing: the right sign (`C69_friction_sign_refuted`); the pressure part has the right one (`C69_pressure`). -/
theorem C69_friction_partial (g : Gas) (aoa : ℝ) (marker : ℤ) (ranks : List (List WallFace)) (hA : wallLen (wall marker ranks) ≠ 0)
    (hu : Unit (wall marker ranks)) (hr : ∀ F ∈ wall marker ranks, F.u 0 ≠ 0) :
    ∃ cl cdp, coefficients g aoa marker ranks = some (cl, cdp,
      -((frictionForce g (wall marker ranks) 0 * Real.cos aoa + frictionForce g (wall marker ranks) 1 * Real.sin aoa) / wallLen (wall marker ranks))) := by
  refine ⟨((wall marker ranks).map fun F => cp g F * dot F.n (windNormal aoa) * F.len).sum / wallLen (wall marker ranks),
    ((wall marker ranks).map fun F => cp g F * dot F.n (windDir aoa) * F.len).sum / wallLen (wall marker ranks), ?_⟩
  rw [coefficients_eq, if_neg hA]
  congr 1
  refine Prod.ext rfl (Prod.ext rfl ?_)
  simp only []
  rw [← neg_div]
  congr 1
  unfold frictionForce
  rw [show ∀ a b : ℝ, -(a * Real.cos aoa + b * Real.sin aoa) = (-Real.cos aoa) * a + (-Real.sin aoa) * b from fun a b => by ring, ← sum_lin]
  congr 1
  apply List.map_congr_left
  intro F hF
  have h1 := hu F hF
  have h0 := hr F hF
  have hg : ∀ i j, gradu F i j = velGrad F i j := by
    intro i j
    unfold gradu velGrad
    field_simp
  simp only [cf, shearForce, hg, tang, dot, wind_unit, tangential, traction, stress, Matrix.cons_val_zero, Matrix.cons_val_one,
    Fin.isValue, if_true, if_false, zero_ne_one, one_ne_zero]
  generalize velGrad F 0 0 = a, velGrad F 0 1 = b, velGrad F 1 0 = c, velGrad F 1 1 = d
  generalize g.viscosityC F.u = mu
  have h2 : F.n 1 ^ 2 = 1 - F.n 0 ^ 2 := by linarith
  generalize hx : F.n 0 = x at *
  generalize hy : F.n 1 = y at *
  generalize Real.cos aoa = C
  generalize Real.sin aoa = S
  linear_combination (2 * F.len * mu * C * (x * (-(2/3)*(a+d) + 2 * a) + y * (b + c)) + 2 * F.len * mu * S * (x * (b + c) + y * (2 * d - 2/3*(a+d)))) * h1

/-- Flow over a flat plate: shear with velocity growing away from the wall, wind along the plate, normal out of the fluid. -/
noncomputable def plate : WallFace where
  tag := 3
  n := ![0, -1]
  len := 1
  u := ![1, 0, 0, 1]
  grad := ![![0, 0, 0, 0], ![0, 1, 0, 0]]

/-- C69 is refuted for the friction drag: for shear flow along a plate the force on the plate is along the flow, the coefficient negative. -/
theorem C69_friction_sign_refuted (g : Gas) (hmu : 0 < g.viscosityC plate.u) :
    0 < frictionForce g [plate] 0 ∧ ∃ cl cdp cdf, coefficients g 0 3 [[plate]] = some (cl, cdp, cdf) ∧ cdf < 0 := by
  have hw : wall 3 [[plate]] = [plate] := by simp [wall, plate]
  have hf : frictionForce g [plate] 0 = 2 * g.viscosityC plate.u := by
    simp [frictionForce, tangential, traction, stress, velGrad, plate, vix]
  obtain ⟨cl, cdp, h⟩ := C69_friction_partial g 0 3 [[plate]] (by rw [hw]; simp [wallLen, plate])
    (by rw [hw]; intro F hF; rw [List.mem_singleton.1 hF]; simp [plate]) (by rw [hw]; intro F hF; rw [List.mem_singleton.1 hF]; simp [plate])
  refine ⟨by rw [hf]; linarith, cl, cdp, _, h, ?_⟩
  rw [hw, hf]
  simp [wallLen, plate]
  exact hmu

/-- Air at the temperature of the free stream 288 K. -/
noncomputable def air : Gas := ⟨7 / 5, 1 / 2, 288, 1000, 7 / 10⟩

/-- The refutation applies to air. -/
example : 0 < air.viscosityC plate.u := by
  have hT : air.temperatureC plate.u = 7 / 50 := by
    simp [Gas.temperatureC, Gas.temperature, Gas.pressure, Gas.pressureOfInternal, plate, air, dot, mom]; norm_num
  unfold Gas.viscosityC
  rw [hT]
  unfold Gas.viscosityT sC air
  positivity

/-- C69: skin friction is always computed with Sutherland's viscosity, also if the flow is computed with constant viscosity (`1/Re`): at
four times the free-stream temperature the two differ, for every gas. -/
theorem C69_viscosity_law_refuted (g : Gas) (hT : 0 < g.Tinf) (hR : g.Reinf ≠ 0) : g.viscosityT 4 ≠ 1 / g.Reinf := by
  have h8 : (4 : ℝ) ^ (3 / 2 : ℝ) = 8 := by
    rw [show (4 : ℝ) = 2 ^ (2 : ℝ) by norm_num, ← Real.rpow_mul (by norm_num)]
    norm_num
  unfold Gas.viscosityT
  rw [h8]
  have hs : 0 < sC / g.Tinf := div_pos (by unfold sC; norm_num) hT
  generalize sC / g.Tinf = s at *
  intro h
  field_simp at h
  linarith

/-! ### Rows of the output array -/

theorem rows_eq (g : Gas) (marker : ℤ) (cap : ℕ) (faces : List WallFace) :
    rows g marker cap faces = if (faces.filter fun F => F.tag = marker).length ≤ cap then
      some ((faces.filter fun F => F.tag = marker).map fun F => (cp g F, cf g F)) else none := by
  induction faces using List.reverseRecOn with
  | nil => simp [rows]
  | append_singleton l F ih =>
    rw [rows, List.foldlM_append, ← rows, ih, List.filter_append]
    by_cases hm : F.tag = marker
    · by_cases hc : (l.filter fun F => F.tag = marker).length + 1 ≤ cap
      · rw [if_pos (by omega)]
        simp [hm, show (l.filter fun F => F.tag = marker).length < cap by omega]
      · by_cases hc' : (l.filter fun F => F.tag = marker).length ≤ cap
        · rw [if_pos hc']
          simp [hm, show ¬ (l.filter fun F => F.tag = marker).length < cap by omega]
        · rw [if_neg hc']
          simp [hm]
          omega
    · by_cases hc' : (l.filter fun F => F.tag = marker).length ≤ cap
      · rw [if_pos hc']
        simp [hm, hc']
      · rw [if_neg hc']
        simp [hm, hc']

/-- C69: the rows written are the pressure and friction coefficients of the wall faces in order, and fit exactly if the array has at least
as many rows as the wall has faces. `exportSurfaceData` passes exactly that many; `run_output` passes the number of cells. -/
theorem C69_rows_iff (g : Gas) (marker : ℤ) (cap : ℕ) (faces : List WallFace) :
    (rows g marker cap faces = some ((faces.filter fun F => F.tag = marker).map fun F => (cp g F, cf g F)) ↔
      (faces.filter fun F => F.tag = marker).length ≤ cap) ∧
    (rows g marker cap faces = none ↔ cap < (faces.filter fun F => F.tag = marker).length) := by
  rw [rows_eq]
  constructor
  · split_ifs with h <;> simp [h]
  · split_ifs with h
    · simp; omega
    · simp; omega

/-- A single triangle with three wall faces: the array passed by `run_output` has one row. -/
theorem C69_rows_refuted (g : Gas) : rows g 3 1 [plate, plate, plate] = none := by
  rw [(C69_rows_iff g 3 1 _).2]; simp [plate]

/-- A closed triangle under uniform pressure, on two processes. -/
noncomputable def side (a b : V2) : WallFace := ⟨3, fNrm a b, fLen a b, ![1, 0, 0, 2], fun _ => 0⟩

theorem triangle_polygon : Polygon (wall 3 [[side ![0, 0] ![1, 0], side ![0, 1] ![0, 0]], [side ![1, 0] ![0, 1]]]) := by
  have hw : wall 3 [[side ![0, 0] ![1, 0], side ![0, 1] ![0, 0]], [side ![1, 0] ![0, 1]]] =
      [side ![0, 0] ![1, 0], side ![0, 1] ![0, 0], side ![1, 0] ![0, 1]] := by simp [wall, side]
  rw [hw]
  refine ⟨3, fun i => if i = 0 then ![0, 0] else if i = 1 then ![1, 0] else ![0, 1], ?_, ?_⟩
  · intro i hi
    obtain rfl | rfl | rfl : i = 0 ∨ i = 1 ∨ i = 2 := by omega
    · intro h; have := congrFun h 0; simp at this
    · intro h; have := congrFun h 0; simp at this
    · intro h; have := congrFun h 1; simp at this
  · have hr : List.range 3 = [0, 1, 2] := rfl
    rw [hr]
    simp only [side, List.map_cons, List.map_nil]
    exact List.Perm.cons _ (List.Perm.swap _ _ _)

example (g : Gas) : ∃ cdf, coefficients g 1 3 [[side ![0, 0] ![1, 0], side ![0, 1] ![0, 0]], [side ![1, 0] ![0, 1]]] = some (0, 0, cdf) := by
  have hw : wall 3 [[side ![0, 0] ![1, 0], side ![0, 1] ![0, 0]], [side ![1, 0] ![0, 1]]] =
      [side ![0, 0] ![1, 0], side ![0, 1] ![0, 0], side ![1, 0] ![0, 1]] := by simp [wall, side]
  have hne : ∀ {a b : V2}, a ≠ b → 0 < (side a b).len := fun h => fLen_pos h
  refine C69_closed_surface g 1 3 _ ?_ triangle_polygon (p := g.pressure ![1, 0, 0, 2]) ?_
  · rw [hw]
    have h1 : 0 < (side ![0, 0] ![1, 0]).len := hne (fun h => by have := congrFun h 0; simp at this)
    have h2 : 0 < (side ![0, 1] ![0, 0]).len := hne (fun h => by have := congrFun h 1; simp at this)
    have h3 : 0 < (side ![1, 0] ![0, 1]).len := hne (fun h => by have := congrFun h 0; simp at this)
    simp only [wallLen, List.map_cons, List.map_nil, List.sum_cons, List.sum_nil]
    linarith
  · rw [hw]
    intro F hF
    simp only [List.mem_cons, List.not_mem_nil, or_false] at hF
    rcases hF with rfl | rfl | rfl <;> rfl

end Out
end FVENS
