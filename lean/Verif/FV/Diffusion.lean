import Verif.FV.Jacobian

/-!
# Scalar diffusion (C53)

`DiffusionMA` of src/spatial/diffusion.cpp, for any number of variables. The right-hand side is accumulated into `r`; gradients of
connectivity ghost cells are what the exchange delivered (`gg`).
-/

namespace FVENS
namespace FV

open Msh Finset

/-- Data of a `DiffusionMA` object, src/spatial/diffusion.hpp:20-110; `source` is called with time 0. -/
structure Diff (nv : ℕ) where
  G : Geo
  nu : ℝ
  bval : ℝ
  source : (Fin 2 → ℝ) → (Fin nv → ℝ) → Fin nv → ℝ

namespace Diff

variable {nv : ℕ} (D : Diff nv)

/-- `compute_boundary_state`, src/spatial/diffusion.cpp:39-45. -/
def bstate (ins : Fin nv → ℝ) : Fin nv → ℝ := fun v => 2 * D.bval - ins v

/-- Gradients of the cells, src/spatial/diffusion.cpp:149-160, and of ghost cells after the exchange. -/
noncomputable def gradients (gs : GradScheme) (u gug : ℕ → Fin nv → ℝ) (gg : ℕ → Fin 2 → Fin nv → ℝ) : ℕ → Fin 2 → Fin nv → ℝ := fun i =>
  if i < D.G.m.nelem then
    match gs with
    | .zero => 0
    | .greenGauss => D.G.greenGauss u gug i
    | .wls => D.G.wls u gug i
  else gg i

/-- Normal flux through a face from the states and gradients of the sides, src/spatial/diffusion.cpp:93-104, 183-195. -/
noncomputable def faceFlux (k : ℕ) (ul ur : Fin nv → ℝ) (gl gr : Fin 2 → Fin nv → ℝ) : Fin nv → ℝ := fun v =>
  let gf := faceGrad (D.G.xl k) (D.G.xr k) ul ur gl gr
  ((0 + gf 0 v * D.G.nrm k 0) + gf 1 v * D.G.nrm k 1) * (-D.nu * D.G.len k)

/-- Flux of a face in `compute_residual`: boundary faces use the inner gradient twice, src/spatial/diffusion.cpp:171-200, 73-114. -/
noncomputable def flux (u : ℕ → Fin nv → ℝ) (g : ℕ → Fin 2 → Fin nv → ℝ) (k : ℕ) : Fin nv → ℝ :=
  let l := (D.G.face k).left
  let r := (D.G.face k).right
  if k < D.G.m.nbface then D.faceFlux k (u l) (D.bstate (u l)) (g l) (g l) else D.faceFlux k (u l) (u r) (g l) (g r)

/-- `compute_residual`, src/spatial/diffusion.cpp:116-250. -/
noncomputable def residual (gs : GradScheme) (gg : ℕ → Fin 2 → Fin nv → ℝ) (u r : ℕ → Fin nv → ℝ) : ℕ → Fin nv → ℝ := fun i =>
  let g := D.gradients gs u (fun k => D.bstate (u (D.G.face k).left)) gg
  let s := assemble D.G.m.nelem D.G.s.faces (D.flux u g) r i
  if i < D.G.m.nelem then fun v => s v + D.source (D.G.rc i) (u i) v * D.G.ar i else s

/-- Cell size, src/spatial/diffusion.cpp:21-31; a missing face entry would be read as face 0. -/
noncomputable def h (i : ℕ) : ℝ :=
  forLt (D.G.m.nfael i) 0 fun f h =>
    let k := (D.G.s.elemface i f).getD 0
    if h < D.G.len k then D.G.len k else h

/-- Time step, src/spatial/diffusion.cpp:239-240. -/
noncomputable def timestep (i : ℕ) : ℝ := D.h i * D.h i / D.nu

/-- Derivative of the thin-layer gradient with respect to the left state, with `du` the unit matrix, src/spatial/diffusion.cpp:262-272, 300-312
and src/spatial/aspatial.cpp:234-237. -/
noncomputable def dgl (k : ℕ) (j : Fin 2) (a b : Fin nv) : ℝ := -(if a = b then 1 else 0) / cdist (D.G.xl k) (D.G.xr k) * cdir (D.G.xl k) (D.G.xr k) j

/-- Block of a face: `compute_local_jacobian_interior` (both blocks) and `compute_local_jacobian_boundary`,
src/spatial/diffusion.cpp:274-288, 314-322. -/
noncomputable def blk (k : ℕ) : Blk (Fin nv) := fun a b =>
  if a = b then ((0 + D.dgl k 0 a a * D.G.nrm k 0) + D.dgl k 1 a a * D.G.nrm k 1) * (D.nu * D.G.len k) else 0

/-! ### C53: boundary value -/

/-- C53: the average of the inner state and the ghost state is the prescribed boundary value. -/
theorem C53_boundary_value (ins : Fin nv → ℝ) (v : Fin nv) : (ins v + D.bstate ins v) / 2 = D.bval := by
  unfold bstate; ring

/-! ### C53: conservation -/

/-- C53: the residuals add up to the initial sum, the integrated source and minus the fluxes through faces with a cell on one side only. -/
theorem C53_conservative (hG : D.G.Ok) (gs : GradScheme) (gg : ℕ → Fin 2 → Fin nv → ℝ) (u r : ℕ → Fin nv → ℝ) :
    ∑ i ∈ range D.G.m.nelem, D.residual gs gg u r i = ∑ i ∈ range D.G.m.nelem, (r i + D.G.ar i • D.source (D.G.rc i) (u i)) -
      ∑ k ∈ range D.G.nface, if D.G.m.nelem ≤ (D.G.face k).right then
        D.flux u (D.gradients gs u (fun k => D.bstate (u (D.G.face k).left)) gg) k else 0 := by
  have hc := C41_conservative hG.conf hG.topo (D.flux u (D.gradients gs u (fun k => D.bstate (u (D.G.face k).left)) gg)) r
  have e : ∀ i ∈ range D.G.m.nelem, D.residual gs gg u r i =
      assemble D.G.m.nelem D.G.s.faces (D.flux u (D.gradients gs u (fun k => D.bstate (u (D.G.face k).left)) gg)) r i +
        D.G.ar i • D.source (D.G.rc i) (u i) := fun i hi => by
    unfold residual
    rw [if_pos (mem_range.1 hi)]
    funext v; simp [mul_comm]
  rw [sum_congr rfl e, sum_add_distrib, hc, sum_add_distrib]
  unfold Geo.nface Geo.face
  abel

/-! ### C53: consistency -/

/-- C53: for a linear field with exact gradients the flux is that of the field. -/
theorem C53_linear_flux (k : ℕ) (hx : D.G.xl k ≠ D.G.xr k) (c : Fin nv → ℝ) (s : Fin 2 → Fin nv → ℝ) (v : Fin nv) :
    D.faceFlux k (fun i => c i + (s 0 i * D.G.xl k 0 + s 1 i * D.G.xl k 1)) (fun i => c i + (s 0 i * D.G.xr k 0 + s 1 i * D.G.xr k 1)) s s v =
      -D.nu * (s 0 v * D.G.nrm k 0 + s 1 v * D.G.nrm k 1) * D.G.len k := by
  unfold faceFlux
  rw [C52_linear hx]
  simp only
  ring

theorem faceFlux_equal (k : ℕ) (c : Fin nv → ℝ) : D.faceFlux k c c 0 0 = 0 := by
  funext v
  unfold faceFlux
  rw [faceGrad_zero]
  simp [thinGrad]

/-- C53: a field equal to the boundary value everywhere has no flux: only the source remains. -/
theorem C53_constant (hG : D.G.Ok) {gs : GradScheme} (hgs : Disc.GradOk D.G gs) {gg : ℕ → Fin 2 → Fin nv → ℝ} {u : ℕ → Fin nv → ℝ}
    (hu : ∀ i, i < D.G.rows → u i = fun _ => D.bval) (hgg : ∀ i, i < D.G.rows → ¬ i < D.G.m.nelem → gg i = 0) (r : ℕ → Fin nv → ℝ)
    {i : ℕ} (hi : i < D.G.m.nelem) : D.residual gs gg u r i = fun v => r i v + D.source (D.G.rc i) (u i) v * D.G.ar i := by
  have hL : ∀ k, k < D.G.nface → (D.G.face k).left < D.G.rows := fun k hk => by have := (hG.kind hk).1; unfold Geo.rows; omega
  have hnb : D.G.m.nbface ≤ D.G.nface := by rw [hG.nface_eq]; omega
  have hug : ∀ k, k < D.G.m.nbface → D.bstate (u (D.G.face k).left) = fun _ => D.bval := fun k hk => by
    rw [hu _ (hL k (by omega))]; funext v; unfold bstate; ring
  have hg : ∀ j, j < D.G.rows → D.gradients gs u (fun k => D.bstate (u (D.G.face k).left)) gg j = 0 := fun j hj => by
    unfold gradients
    by_cases hj' : j < D.G.m.nelem
    · rw [if_pos hj']
      cases gs with
      | zero => rfl
      | greenGauss => exact Geo.C45_greenGauss_constant hG hgs _ hu hug hj'
      | wls =>
        obtain ⟨h1, h2⟩ := hgs j hj'
        refine Geo.C45_wls_linear_exact hG hj' h1 h2 (fun _ => D.bval) 0 (fun i hi j => ?_) (fun k hk j => ?_)
        · rw [hu i hi]; simp
        · rw [hug k hk]; simp
    · rw [if_neg hj']; exact hgg j hj hj'
  unfold residual
  rw [if_pos hi]
  funext v
  rw [assemble_eq, sum_eq_zero]
  · simp
  intro k hk
  have hk := mem_range.1 hk
  have hz : D.flux u (D.gradients gs u (fun k => D.bstate (u (D.G.face k).left)) gg) k = 0 := by
    unfold flux
    by_cases hb : k < D.G.m.nbface
    · simp only [hb, if_true]
      rw [hug k hb, hg _ (hL k hk), hu _ (hL k hk)]
      exact D.faceFlux_equal k _
    · have hR := (hG.kind hk).2.2.2.2 (by omega)
      simp only [hb, if_false]
      rw [hg _ (hL k hk), hu _ (hL k hk), hg _ hR, hu _ hR]
      exact D.faceFlux_equal k _
  rw [hz]
  unfold contrib
  split_ifs <;> simp

/-! ### C53: Jacobian -/

/-- Coefficient of a face: minus the derivative of the thin-layer flux with respect to the left value. -/
noncomputable def coef (k : ℕ) : ℝ :=
  -(D.nu * D.G.len k) * (cdir (D.G.xl k) (D.G.xr k) 0 * D.G.nrm k 0 + cdir (D.G.xl k) (D.G.xr k) 1 * D.G.nrm k 1) / cdist (D.G.xl k) (D.G.xr k)

theorem blk_eq (k : ℕ) (a b : Fin nv) : D.blk k a b = if a = b then D.coef k else 0 := by
  unfold blk dgl coef
  by_cases h : a = b
  · simp only [h, if_true]; ring
  · simp only [h, if_false]

theorem thin_flux (k : ℕ) (ul ur : Fin nv → ℝ) (v : Fin nv) : D.faceFlux k ul ur 0 0 v = D.coef k * (ur v - ul v) := by
  unfold faceFlux coef
  rw [faceGrad_zero]
  unfold thinGrad
  simp only
  ring

theorem hasGradN_proj {ι : Type*} [Fintype ι] [DecidableEq ι] (v : ι) (u : ι → ℝ) : HasGradN (fun a => a v) (fun b => if v = b then 1 else 0) u := by
  have e : rowN (fun b => if v = b then (1 : ℝ) else 0) = ContinuousLinearMap.proj v := by
    apply ContinuousLinearMap.ext; intro x; simp [rowN_apply]
  unfold HasGradN
  rw [e]
  exact (ContinuousLinearMap.proj (R := ℝ) (φ := fun _ : ι => ℝ) v).hasFDerivAt

theorem _root_.FVENS.FV.HasGradN.congr_fun {ι : Type*} [Fintype ι] {f f' : (ι → ℝ) → ℝ} {g u : ι → ℝ} (h : HasGradN f g u) (e : ∀ a, f' a = f a) :
    HasGradN f' g u := (funext e : f' = f) ▸ h

/-- C53: the interior blocks are derivatives of the thin-layer flux with respect to the two states. -/
theorem C53_interior_blocks (k : ℕ) (ul ur : Fin nv → ℝ) (v : Fin nv) :
    HasGradN (fun a => D.faceFlux k a ur 0 0 v) (-(D.blk k v)) ul ∧ HasGradN (fun a => D.faceFlux k ul a 0 0 v) (D.blk k v) ur := by
  simp only [thin_flux]
  constructor
  · have h := ((hasGradN_proj v ul).smul (-D.coef k)).add (HasGradN.const (D.coef k * ur v) ul)
    refine (h.congr_fun fun a => ?_).congr ?_
    · ring
    · funext b; simp [blk_eq]
  · have h := ((hasGradN_proj v ur).smul (D.coef k)).add (HasGradN.const (-(D.coef k * ul v)) ur)
    refine (h.congr_fun fun a => ?_).congr ?_
    · ring
    · funext b; simp [blk_eq]

/-- The flux at a boundary face changes with the inner state twice as fast as the coded block says. -/
theorem boundary_derivative (k : ℕ) (ul : Fin nv → ℝ) (v : Fin nv) :
    HasGradN (fun a => D.faceFlux k a (D.bstate a) 0 0 v) (-((2 : ℝ) • D.blk k v)) ul := by
  simp only [thin_flux]
  have h := ((hasGradN_proj v ul).smul (-2 * D.coef k)).add (HasGradN.const (D.coef k * (2 * D.bval)) ul)
  refine (h.congr_fun fun a => ?_).congr ?_
  · unfold bstate; ring
  · funext b; simp [blk_eq]

theorem _root_.FVENS.FV.HasGradN.unique {ι : Type*} [Fintype ι] [DecidableEq ι] {f : (ι → ℝ) → ℝ} {g g' u : ι → ℝ} (h : HasGradN f g u) (h' : HasGradN f g' u) : g = g' := by
  have e := HasFDerivAt.unique h h'
  funext i
  have := DFunLike.congr_fun e (Pi.single i 1)
  simpa [rowN_apply, Pi.single_apply] using this

/-- C53, exact: a boundary block is the derivative of the boundary flux exactly if the coefficient of the face vanishes. -/
theorem C53_boundary_iff (k : ℕ) (ul : Fin nv → ℝ) (v : Fin nv) :
    HasGradN (fun a => D.faceFlux k a (D.bstate a) 0 0 v) (-(D.blk k v)) ul ↔ D.coef k = 0 := by
  constructor
  · intro h
    have e := congrFun (HasGradN.unique h (D.boundary_derivative k ul v)) v
    simp [blk_eq] at e
    linarith
  · intro h
    refine (D.boundary_derivative k ul v).congr ?_
    funext b; simp [blk_eq, h]

/-- Numerator of the coefficient: it vanishes exactly if the diffusivity or face length is zero, the centres coincide, or the line between
the centres is parallel to the face. -/
theorem coef_eq_zero_iff (k : ℕ) : D.coef k = 0 ↔ D.nu = 0 ∨ D.G.len k = 0 ∨ D.G.xl k = D.G.xr k ∨
    (D.G.xr k 0 - D.G.xl k 0) * D.G.nrm k 0 + (D.G.xr k 1 - D.G.xl k 1) * D.G.nrm k 1 = 0 := by
  by_cases hx : D.G.xl k = D.G.xr k
  · simp [coef, cdir, hx]
  · have hp := cdist_pos hx
    have e : D.coef k = -(D.nu * D.G.len k) * ((D.G.xr k 0 - D.G.xl k 0) * D.G.nrm k 0 + (D.G.xr k 1 - D.G.xl k 1) * D.G.nrm k 1) /
        (cdist (D.G.xl k) (D.G.xr k) * cdist (D.G.xl k) (D.G.xr k)) := by
      unfold coef cdir; field_simp
    rw [e, div_eq_zero_iff]
    simp only [mul_eq_zero, neg_eq_zero, hp.ne', hx, or_false, false_or, or_assoc]

/-- Thin-layer residual of a source which does not depend on the solution, in terms of face fluxes. -/
theorem residual_thin (u r : ℕ → Fin nv → ℝ) {q : ℕ → Fin nv → ℝ} (hq : ∀ i, i < D.G.m.nelem → ∀ w, D.source (D.G.rc i) w = q i)
    {i : ℕ} (hi : i < D.G.m.nelem) : D.residual .zero (fun _ => 0) u r i =
      assemble D.G.m.nelem D.G.s.faces (fluxAt D.G (fun k a => D.faceFlux k a (D.bstate a) 0 0) (fun k a b => D.faceFlux k a b 0 0) u)
        (fun i v => r i v + q i v * D.G.ar i) i := by
  have hg : D.gradients .zero u (fun k => D.bstate (u (D.G.face k).left)) (fun _ => 0) = fun _ => 0 := by
    funext j; simp [gradients]
  unfold residual
  rw [if_pos hi, hg, hq i hi]
  funext v
  rw [assemble_eq, assemble_eq]
  have : D.flux u (fun _ => 0) = fluxAt D.G (fun k a => D.faceFlux k a (D.bstate a) 0 0) (fun k a b => D.faceFlux k a b 0 0) u := by
    funext k; unfold flux fluxAt; split_ifs <;> rfl
  rw [this]
  simp only [Pi.add_apply]
  ring

/-- C53: the assembled matrix with the boundary blocks doubled is the derivative of the thin-layer residual. -/
theorem C53_jacobian_doubled (hG : D.G.Ok) {gcol : ℕ → Option ℕ} (hN : IsNumbering D.G gcol) {u : ℕ → Fin nv → ℝ} {n : ℕ} {A : ℕ × ℕ → Blk (Fin nv)}
    (hA : AssembleJac D.G gcol (fun k => (2 : ℝ) • D.blk k) D.blk D.blk n (fun _ => 0) A) (r : ℕ → Fin nv → ℝ)
    {q : ℕ → Fin nv → ℝ} (hq : ∀ i, i < D.G.m.nelem → ∀ w, D.source (D.G.rc i) w = q i)
    {i gi gc : ℕ} (hi : i < D.G.m.nelem) (hgi : gcol i = some gi) {u0 : Fin nv → ℝ} (hu0 : ∀ j, j < D.G.rows → gcol j = some gc → u j = u0) (v : Fin nv) :
    HasGradN (fun a => -(D.residual .zero (fun _ => 0) (fun j => if gcol j = some gc then a else u j) r i v)) (A (gi, gc) v) u0 := by
  simp only [D.residual_thin _ r hq hi]
  exact C50_derivative hG hN ⟨fun k _ v => D.boundary_derivative k _ v, fun k _ _ v => (D.C53_interior_blocks k _ _ v).1,
    fun k _ _ v => (D.C53_interior_blocks k _ _ v).2⟩ hA _ hi hgi hu0 v

/-- C53 for the code's blocks: the assembled matrix is the derivative of the thin-layer residual if no cell has a physical boundary face.
Missing for the full claim: boundary blocks, which are half of the derivative (`C53_boundary_iff`, `C53_refuted`). -/
theorem C53_jacobian_partial (hG : D.G.Ok) (hb : D.G.m.nbface = 0) {gcol : ℕ → Option ℕ} (hN : IsNumbering D.G gcol) {u : ℕ → Fin nv → ℝ} {n : ℕ}
    {A : ℕ × ℕ → Blk (Fin nv)} (hA : AssembleJac D.G gcol D.blk D.blk D.blk n (fun _ => 0) A) (r : ℕ → Fin nv → ℝ)
    {q : ℕ → Fin nv → ℝ} (hq : ∀ i, i < D.G.m.nelem → ∀ w, D.source (D.G.rc i) w = q i)
    {i gi gc : ℕ} (hi : i < D.G.m.nelem) (hgi : gcol i = some gi) {u0 : Fin nv → ℝ} (hu0 : ∀ j, j < D.G.rows → gcol j = some gc → u j = u0) (v : Fin nv) :
    HasGradN (fun a => -(D.residual .zero (fun _ => 0) (fun j => if gcol j = some gc then a else u j) r i v)) (A (gi, gc) v) u0 := by
  simp only [D.residual_thin _ r hq hi]
  exact C50_derivative hG hN ⟨fun k hk => absurd hk (by omega), fun k _ _ v => (D.C53_interior_blocks k _ _ v).1,
    fun k _ _ v => (D.C53_interior_blocks k _ _ v).2⟩ hA _ hi hgi hu0 v

/-- C53, exact: with the code's blocks the diagonal block of a cell is the derivative exactly if the coefficients of the cell's physical boundary
faces add up to zero. -/
theorem C53_jacobian_iff (hG : D.G.Ok) {gcol : ℕ → Option ℕ} (hN : IsNumbering D.G gcol) (u : ℕ → Fin nv → ℝ) {n : ℕ} (hn : 0 < n)
    {A : ℕ × ℕ → Blk (Fin nv)} (hA : AssembleJac D.G gcol D.blk D.blk D.blk n (fun _ => 0) A) (r : ℕ → Fin nv → ℝ)
    {q : ℕ → Fin nv → ℝ} (hq : ∀ i, i < D.G.m.nelem → ∀ w, D.source (D.G.rc i) w = q i)
    {i gi : ℕ} (hi : i < D.G.m.nelem) (hgi : gcol i = some gi) (hg : ∀ j, j < D.G.rows → gcol j = some gi → u j = u i) (v : Fin nv) :
    HasGradN (fun a => -(D.residual .zero (fun _ => 0) (fun j => if gcol j = some gi then a else u j) r i v)) (A (gi, gi) v) (u i) ↔
      ∑ k ∈ (range D.G.m.nbface).filter (fun k => (D.G.face k).left = i), D.coef k = 0 := by
  obtain ⟨B, hB⟩ := assembleJac_exists (G := D.G) (gcol := gcol) (Lb := fun k => (2 : ℝ) • D.blk k) (L := D.blk) (U := D.blk) hn (fun _ => 0)
  have hd := D.C53_jacobian_doubled hG hN hB r hq hi hgi hg v
  have hdiff : B (gi, gi) v - A (gi, gi) v = fun b => if v = b then -∑ k ∈ (range D.G.m.nbface).filter (fun k => (D.G.face k).left = i), D.coef k else 0 := by
    rw [C50_schedule hG hA, C50_schedule hG hB, zero_add, zero_add, ← Pi.sub_apply, ← sum_sub_distrib]
    have e : ∀ k ∈ range D.G.nface, amtAt (gi, gi) (jacUpds D.G gcol (fun k => (2 : ℝ) • D.blk k) D.blk D.blk k) -
        amtAt (gi, gi) (jacUpds D.G gcol D.blk D.blk D.blk k) = if k < D.G.m.nbface ∧ (D.G.face k).left = i then -D.blk k else 0 := by
      intro k hk
      have hL := (hG.kind (mem_range.1 hk)).1
      unfold jacUpds
      by_cases hb : k < D.G.m.nbface
      · simp only [hb, if_true, true_and, amtAt_ent, and_self]
        have : gcol (D.G.face k).left = some gi ↔ (D.G.face k).left = i :=
          ⟨fun e => hN.inj _ _ hL hi (e.trans hgi.symm), fun e => e ▸ hgi⟩
        simp only [this]
        split_ifs
        · funext a b; simp; ring
        · simp
      · simp [hb]
    rw [sum_congr rfl e]
    funext b
    rw [Finset.sum_apply, Finset.sum_apply]
    have hnb : D.G.m.nbface ≤ D.G.nface := by rw [hG.nface_eq]; omega
    have e2 : ∀ k, (if k < D.G.m.nbface ∧ (D.G.face k).left = i then -D.blk k else 0) v b =
        if k < D.G.m.nbface ∧ (D.G.face k).left = i then (if v = b then -D.coef k else 0) else 0 := fun k => by
      split_ifs with h1 h2 <;> simp [blk_eq, *]
    simp only [e2]
    rw [← sum_filter]
    have e3 : (range D.G.nface).filter (fun k => k < D.G.m.nbface ∧ (D.G.face k).left = i) =
        (range D.G.m.nbface).filter (fun k => (D.G.face k).left = i) := by
      ext k; simp only [mem_filter, mem_range]; constructor
      · rintro ⟨_, h⟩; exact h
      · rintro ⟨h1, h2⟩; exact ⟨by omega, h1, h2⟩
    rw [e3]
    split_ifs <;> simp
  constructor
  · intro h
    have e := HasGradN.unique h hd
    have := congrFun hdiff v
    rw [Pi.sub_apply, ← e] at this
    simpa using this.symm
  · intro h
    refine hd.congr ?_
    have : B (gi, gi) v - A (gi, gi) v = 0 := by rw [hdiff, h]; funext b; simp
    exact sub_eq_zero.1 this

/-! ### C53: time steps -/

/-- C53: the cell size is the length of the longest face of the cell; with positive diffusivity the time step is positive. -/
theorem C53_timestep (hG : D.G.Ok) (hnu : 0 < D.nu) {i : ℕ} (hi : i < D.G.m.nelem) :
    (∀ f k, f < D.G.m.nfael i → D.G.s.elemface i f = some k → D.G.len k ≤ D.h i) ∧
    (∃ f k, f < D.G.m.nfael i ∧ D.G.s.elemface i f = some k ∧ D.h i = D.G.len k) ∧ 0 < D.timestep i := by
  have hlin := hG.conf.lin
  have hnf := hlin.nf i hi
  have h3 := hlin.three i hi
  have hex : ∀ f, f < D.G.m.nfael i → ∃ k, D.G.s.elemface i f = some k ∧ k < D.G.nface := fun f hf => by
    obtain ⟨⟨k, hk⟩, h2⟩ := C71_elemface hG.conf hG.topo (x := (i, f)) ⟨hi, by rw [← hnf]; exact hf⟩
    obtain ⟨F, hF, _⟩ := (h2 k).1 hk
    exact ⟨k, hk, (List.getElem?_eq_some_iff.1 hF).1⟩
  have hlen : ∀ f k, f < D.G.m.nfael i → D.G.s.elemface i f = some k → 0 < D.G.len k := fun f k hf hk => by
    obtain ⟨k', hk', hlt⟩ := hex f hf
    obtain rfl : k' = k := by rw [hk] at hk'; exact (Option.some.inj hk').symm
    exact Disc.len_pos (D := { Disc.exDisc with G := D.G }) hG hlt
  have inv : ∀ m, m ≤ D.G.m.nfael i →
      let x := forLt m (0 : ℝ) fun f h => let k := (D.G.s.elemface i f).getD 0; if h < D.G.len k then D.G.len k else h
      (∀ f k, f < m → D.G.s.elemface i f = some k → D.G.len k ≤ x) ∧ (0 < m → ∃ f k, f < m ∧ D.G.s.elemface i f = some k ∧ x = D.G.len k) ∧ 0 ≤ x := by
    intro m
    induction m with
    | zero => intro _; exact ⟨fun f k hf => absurd hf (by omega), fun h => absurd h (by omega), le_of_eq (by rw [forLt_zero])⟩
    | succ m ih =>
      intro hm
      obtain ⟨i1, i2, i3⟩ := ih (by omega)
      obtain ⟨k, hk, _⟩ := hex m (by omega)
      have hp := hlen m k (by omega) hk
      intro x
      set y := forLt m (0 : ℝ) fun f h => let k := (D.G.s.elemface i f).getD 0; if h < D.G.len k then D.G.len k else h with hy
      have hx : x = if y < D.G.len k then D.G.len k else y := by
        change forLt (m + 1) _ _ = _
        rw [forLt_succ, ← hy]; simp [hk]
      by_cases hlt : y < D.G.len k
      · rw [if_pos hlt] at hx
        refine ⟨fun f k' hf hk' => ?_, fun _ => ⟨m, k, by omega, hk, hx⟩, by rw [hx]; exact hp.le⟩
        by_cases e : f = m
        · subst e; rw [hk] at hk'; rw [hx, Option.some.inj hk']
        · rw [hx]; exact (i1 f k' (by omega) hk').trans hlt.le
      · rw [if_neg hlt] at hx
        have hle : D.G.len k ≤ y := not_lt.1 hlt
        refine ⟨fun f k' hf hk' => ?_, fun _ => ?_, by rw [hx]; exact i3⟩
        · by_cases e : f = m
          · subst e; rw [hk] at hk'; rw [hx, ← Option.some.inj hk']; exact hle
          · rw [hx]; exact i1 f k' (by omega) hk'
        · by_cases hm0 : 0 < m
          · obtain ⟨f, k', a, b, c⟩ := i2 hm0
            exact ⟨f, k', by omega, b, by rw [hx]; exact c⟩
          · exfalso
            obtain rfl : m = 0 := by omega
            rw [hy, forLt_zero] at hle
            linarith
  obtain ⟨i1, i2, i3⟩ := inv _ le_rfl
  obtain ⟨f, k, hf, hk, e⟩ := i2 (by omega)
  refine ⟨i1, ⟨f, k, hf, hk, e⟩, ?_⟩
  have : 0 < D.h i := by
    have hp := hlen f k hf hk
    change 0 < forLt _ _ _
    rw [e]; exact hp
  unfold timestep
  positivity

/-! ### Example -/

/-- Heat conduction on the example mesh, boundary value 3, source x. -/
noncomputable def exDiff : Diff 1 := ⟨exGeo, 1/2, 3, fun x _ _ => x 0⟩

/-- C53 refuted: on the example mesh the assembled diagonal block of cell 0, which has three physical boundary faces, is not the derivative of the
thin-layer residual, whatever the number of threads and the schedule. -/
theorem C53_refuted {n : ℕ} (hn : 0 < n) {A : ℕ × ℕ → Blk (Fin 1)}
    (hA : AssembleJac exGeo (numbering exGeo.m false id) exDiff.blk exDiff.blk exDiff.blk n (fun _ => 0) A) (u : ℕ → Fin 1 → ℝ) :
    ¬ HasGradN (fun a => -(exDiff.residual .zero (fun _ => 0) (fun j => if numbering exGeo.m false id j = some 0 then a else u j) (fun _ => 0) 0 0))
      (A (0, 0) 0) (u 0) := by
  have hN : IsNumbering exDiff.G (numbering exGeo.m false id) := numbering_isNumbering exGeo_ok false id (by simp)
  rw [C53_jacobian_iff (gi := 0) exDiff exGeo_ok hN u hn hA (fun _ => 0) (q := fun i _ => exGeo.rc i 0) (fun _ _ _ => rfl) (show 0 < 2 by norm_num) rfl
    (fun j _ hg => by
      have : j = 0 := by
        unfold numbering at hg; simp at hg; exact hg.2
      rw [this]) 0]
  obtain ⟨hnf, f0, f1, f2, f3, f4, f5⟩ := exGeo_face
  obtain ⟨l0, l1, l2, l3, l4, l5, r0, r1, r2, r3, r4, r5⟩ := exGeo_lr
  obtain ⟨c0, c1, c2, c3, c4⟩ := exGeo_coords
  have hfil : (range exDiff.G.m.nbface).filter (fun k => (exDiff.G.face k).left = 0) = {0, 2, 3} := by
    change (range 4).filter (fun k => (exGeo.face k).left = 0) = _
    ext k
    simp only [mem_filter, mem_range, mem_insert, mem_singleton]
    constructor
    · rintro ⟨hk, hl⟩
      obtain rfl | rfl | rfl | rfl : k = 0 ∨ k = 1 ∨ k = 2 ∨ k = 3 := by omega
      · simp
      · rw [f1] at hl; simp at hl
      · simp
      · simp
    · rintro (rfl | rfl | rfl)
      · simp [f0]
      · simp [f2]
      · simp [f3]
  rw [hfil]
  have hcoef : ∀ k ∈ ({0, 2, 3} : Finset ℕ), exDiff.coef k = -(1 / 2) := by
    intro k hk
    simp only [mem_insert, mem_singleton] at hk
    rcases hk with rfl | rfl | rfl
    all_goals
      simp only [coef, exDiff, cdir, cdist, Geo.len, Geo.nrm, fNrm, fLen, f0, f2, f3, l0, l2, l3, r0, r2, r3, c0, c1, c2, c3]
      norm_num
  rw [sum_congr rfl hcoef]
  norm_num

/-- Hypotheses of `C53_jacobian_partial` are met by a subdomain without physical boundary faces. -/
example : ∃ A : ℕ × ℕ → Blk (Fin 1), ∀ (u : ℕ → Fin 1 → ℝ) v,
    HasGradN (fun a => -((⟨Geo.isleGeo, 1/2, 3, fun x _ _ => x 0⟩ : Diff 1).residual .zero (fun _ => 0)
      (fun j => if numbering Geo.isleGeo.m false id j = some 0 then a else u j) (fun _ => 0) 0 v)) (A (0, 0) v) (u 0) := by
  have hN := numbering_isNumbering Geo.isleGeo_ok false id (by simp)
  obtain ⟨A, hA⟩ := assembleJac_exists (G := Geo.isleGeo) (gcol := numbering Geo.isleGeo.m false id) (Lb := (⟨Geo.isleGeo, 1/2, 3, fun x _ _ => x 0⟩ : Diff 1).blk)
    (L := (⟨Geo.isleGeo, 1/2, 3, fun x _ _ => x 0⟩ : Diff 1).blk) (U := (⟨Geo.isleGeo, 1/2, 3, fun x _ _ => x 0⟩ : Diff 1).blk) (n := 2) (by norm_num) (fun _ => 0)
  refine ⟨A, fun u v => C53_jacobian_partial (⟨Geo.isleGeo, 1/2, 3, fun x _ _ => x 0⟩ : Diff 1) Geo.isleGeo_ok rfl hN hA (fun _ => 0) (q := fun i _ => Geo.isleGeo.rc i 0)
    (fun _ _ _ => rfl) (show 0 < Geo.isleGeo.m.nelem by decide) rfl (fun j _ hg => ?_) v⟩
  have : j = 0 := by unfold numbering at hg; simp at hg; exact hg.2
  rw [this]

/-- Hypothesis of `C53_linear_flux` is met. -/
example : exGeo.xl 4 ≠ exGeo.xr 4 := by
  obtain ⟨l0, l1, l2, l3, l4, l5, r0, r1, r2, r3, r4, r5⟩ := exGeo_lr
  rw [l4, r4]; intro h; have := congrFun h 0; norm_num at this

/-- Hypotheses of `C53_constant` and `C53_timestep` are met. -/
example : exDiff.residual .wls (fun _ => 0) (fun _ _ => 3) (fun _ => 0) 1 = fun _ => 2 / 3 := by
  rw [C53_constant exDiff exGeo_ok (u := fun _ _ => 3) (Disc.exDisc_gradOk .wls) (fun _ _ => rfl) (fun _ _ _ => rfl) (fun _ => 0) (show 1 < 2 by norm_num)]
  funext v
  norm_num [exDiff, exGeo]

example : 0 < exDiff.timestep 1 := (C53_timestep exDiff exGeo_ok (by norm_num [exDiff]) (show 1 < 2 by norm_num)).2.2

end Diff
end FV
end FVENS
