import Verif.FV.Diffusion
import Verif.FV.Closed
import Verif.Par.Explicit

/-!
# Maximum principle of the diffusion solver (C101)

Diffusion without sources never raises the largest value nor lowers the smallest one. The explicit and implicit pseudo-time iterations of src/ode/aodesolver.cpp on
`DiffusionMA`, on one process. The theorems are for the thin-layer gradient (gradient scheme "NONE"), and for every gradient scheme on meshes whose lines of centres are
orthogonal to the faces.
-/

namespace FVENS
namespace FV

open Msh Finset Ode

namespace Diff

variable {nv : ℕ} (D : Diff nv)

/-! ### Model -/

/-- Update of the explicit solver, src/ode/aodesolver.cpp:196-210, with residual from zero. -/
noncomputable def explicit (gs : GradScheme) (cfl : ℝ) (u : ℕ → Fin nv → ℝ) : ℕ → Fin nv → ℝ := fun i =>
  if i < D.G.m.nelem then fun v => u i v + cfl * D.timestep i * 1 / D.G.ar i * D.residual gs (fun _ => 0) u 0 i v else u i

/-- Explicit solver for one variable, src/ode/aodesolver.cpp:135-282 with `DiffusionMA<1>`; the norm is that of the last (only) variable. -/
noncomputable def solver (D : Diff 1) (gs : GradScheme) : Prob (ℕ → Fin 1 → ℝ) where
  norm := fun u => Par.rootOf (∑ l ∈ range D.G.m.nelem, D.residual gs (fun _ => 0) u 0 l 0 * D.residual gs (fun _ => 0) u 0 l 0 * D.G.ar l)
  nonneg := fun _ _ h => Par.rootOf_nonneg h
  upd := D.explicit gs

/-- One iteration of the implicit solver with full update and an exact linear solver, src/ode/aodesolver.cpp:420-514 and `FullUpdate`: the assembled matrix (with blocks `Lb` at
boundary faces) plus area over time step, times the increment, is the residual. -/
def Implicit (gs : GradScheme) (Lb : ℕ → Blk (Fin nv)) (cfl : ℝ) (u u' : ℕ → Fin nv → ℝ) : Prop :=
  ∃ n A, AssembleJac D.G (numbering D.G.m false id) Lb D.blk D.blk n (fun _ => 0) A ∧ ∀ i, i < D.G.m.nelem → ∀ v,
    (∑ q ∈ range D.G.m.nelem, ∑ c, A (i, q) v c * (u' q c - u q c)) + D.G.ar i / (cfl * D.timestep i) * (u' i v - u i v) = D.residual gs (fun _ => 0) u 0 i v

/-! ### Specification -/

/-- Faces of a cell. -/
def facesOf (i : ℕ) : Finset ℕ := (range D.G.nface).filter fun k => (D.G.face k).left = i ∨ (D.G.face k).right = i

/-- What lies across a face of cell `i`: the boundary value or the value of the neighbour. -/
def nb (u : ℕ → Fin nv → ℝ) (i k : ℕ) (v : Fin nv) : ℝ :=
  if k < D.G.m.nbface then D.bval else if (D.G.face k).left = i then u (D.G.face k).right v else u (D.G.face k).left v

/-- Conductance between the cell centre and what lies across the face: diffusivity times length over distance (times the cosine of the angle between normal and line of centres);
the boundary value sits halfway between the centre and the ghost centre. -/
noncomputable def wt (k : ℕ) : ℝ :=
  (if k < D.G.m.nbface then 2 else 1) * (D.nu * D.G.len k * ((D.G.xr k 0 - D.G.xl k 0) * D.G.nrm k 0 + (D.G.xr k 1 - D.G.xl k 1) * D.G.nrm k 1) /
    ((D.G.xr k 0 - D.G.xl k 0) ^ 2 + (D.G.xr k 1 - D.G.xl k 1) ^ 2))

/-- Sum of the conductances of a cell, and of its boundary faces only. -/
noncomputable def load (i : ℕ) : ℝ := ∑ k ∈ D.facesOf i, D.wt k
noncomputable def bload (i : ℕ) : ℝ := ∑ k ∈ (D.facesOf i).filter (fun k => k < D.G.m.nbface), D.wt k

/-- The line of centres is along the normal at every face. -/
def Orth : Prop := ∀ k, k < D.G.nface → ∀ j, cdir (D.G.xl k) (D.G.xr k) j = D.G.nrm k j

/-- Either the gradients are not used or they do not matter. -/
def Plain (gs : GradScheme) : Prop := gs = .zero ∨ D.Orth

/-- No source. -/
def NoSource : Prop := ∀ x w, D.source x w = 0

/-- All values, and the boundary value, lie between two bounds. -/
def Within (a b : ℝ) (u : ℕ → Fin nv → ℝ) : Prop := (a ≤ D.bval ∧ D.bval ≤ b) ∧ ∀ i, i < D.G.rows → ∀ v, a ≤ u i v ∧ u i v ≤ b

/-! ### Residual of a cell -/

theorem wt_eq (k : ℕ) : D.wt k = (if k < D.G.m.nbface then 2 else 1) * -D.coef k := by
  have e : (D.G.xr k 0 - D.G.xl k 0) ^ 2 + (D.G.xr k 1 - D.G.xl k 1) ^ 2 = cdist (D.G.xl k) (D.G.xr k) * cdist (D.G.xl k) (D.G.xr k) := by
    unfold cdist
    rw [Real.mul_self_sqrt (by nlinarith [mul_self_nonneg (D.G.xr k 0 - D.G.xl k 0), mul_self_nonneg (D.G.xr k 1 - D.G.xl k 1)])]
    ring
  unfold wt coef cdir
  rw [e]
  by_cases h : cdist (D.G.xl k) (D.G.xr k) = 0
  · simp [h]
  · field_simp

theorem faceGrad_normal {xl xr n : V2} (hn : ∀ j, cdir xl xr j = n j) (hu : n 0 * n 0 + n 1 * n 1 = 1) (ul ur : Fin nv → ℝ) (gl gr : Fin 2 → Fin nv → ℝ) (v : Fin nv) :
    faceGrad xl xr ul ur gl gr 0 v * n 0 + faceGrad xl xr ul ur gl gr 1 v * n 1 = thinGrad xl xr ul ur 0 v * n 0 + thinGrad xl xr ul ur 1 v * n 1 := by
  simp only [faceGrad, thinGrad, dot, hn]
  linear_combination (-(1 / 2 * (gl 0 v + gr 0 v) * n 0 + 1 / 2 * (gl 1 v + gr 1 v) * n 1)) * hu

section cell
variable {D}

/-- Flux of a face where gradients do not matter. -/
theorem flux_plain (hG : D.G.Ok) {gs : GradScheme} (hp : D.Plain gs) (u : ℕ → Fin nv → ℝ) {k : ℕ} (hk : k < D.G.nface) (v : Fin nv) :
    D.flux u (D.gradients gs u (fun k => D.bstate (u (D.G.face k).left)) fun _ => 0) k v =
      D.coef k * ((if k < D.G.m.nbface then D.bstate (u (D.G.face k).left) v else u (D.G.face k).right v) - u (D.G.face k).left v) := by
  have key : ∀ (ul ur : Fin nv → ℝ) (gl gr : Fin 2 → Fin nv → ℝ), (gs = .zero → gl = 0 ∧ gr = 0) → D.faceFlux k ul ur gl gr v = D.coef k * (ur v - ul v) := by
    intro ul ur gl gr h
    rcases hp with hz | ho
    · obtain ⟨rfl, rfl⟩ := h hz
      exact D.thin_flux k ul ur v
    · rw [← D.thin_flux k ul ur v]
      have hu := Disc.nrm_unit (D := { Disc.exDisc with G := D.G }) hG hk
      have e := faceGrad_normal (ho k hk) hu ul ur gl gr v
      have e0 := faceGrad_normal (ho k hk) hu ul ur 0 0 v
      unfold faceFlux
      simp only [zero_add]
      rw [e, e0]
  have hgz : gs = .zero → ∀ i, D.gradients gs u (fun k => D.bstate (u (D.G.face k).left)) (fun _ => 0) i = 0 := by
    rintro rfl i; simp [gradients]
  unfold flux
  by_cases hb : k < D.G.m.nbface
  · rw [if_pos hb, if_pos hb]; exact key _ _ _ _ fun h => ⟨hgz h _, hgz h _⟩
  · rw [if_neg hb, if_neg hb]; exact key _ _ _ _ fun h => ⟨hgz h _, hgz h _⟩

/-- Residual of a cell: conductances times differences to what lies across the faces, and the source. -/
theorem residual_cell (hG : D.G.Ok) {gs : GradScheme} (hp : D.Plain gs) (u : ℕ → Fin nv → ℝ) {i : ℕ} (hi : i < D.G.m.nelem) (v : Fin nv) :
    D.residual gs (fun _ => 0) u 0 i v = ∑ k ∈ D.facesOf i, D.wt k * (D.nb u i k v - u i v) + D.source (D.G.rc i) (u i) v * D.G.ar i := by
  unfold residual
  rw [if_pos hi]
  congr 1
  rw [assemble_eq, Pi.add_apply, Finset.sum_apply]
  simp only [Pi.zero_apply, zero_add]
  rw [facesOf, sum_filter]
  refine sum_congr rfl fun k hk => ?_
  have hk := mem_range.1 hk
  obtain ⟨h1, h2, h3, h4, h5⟩ := hG.kind hk
  have hf := flux_plain hG hp u hk v
  change (contrib D.G.m.nelem (D.G.face k) (D.flux u (D.gradients gs u (fun k => D.bstate (u (D.G.face k).left)) fun _ => 0) k) i : Fin nv → ℝ) v = _
  unfold contrib
  rw [D.wt_eq k]
  unfold nb
  by_cases hb : k < D.G.m.nbface
  · have hr : (D.G.face k).right ≠ i := by rw [h3 hb]; omega
    simp only [hr, false_and, if_false, or_false, hb, if_true] at hf ⊢
    by_cases hl : (D.G.face k).left = i
    · simp only [hl, if_true, zero_sub, Pi.neg_apply] at hf ⊢
      rw [hf]; unfold bstate; ring
    · simp [hl]
  · simp only [hb, if_false, one_mul] at hf ⊢
    by_cases hl : (D.G.face k).left = i
    · have hr : (D.G.face k).right ≠ i := fun e => h2 (hl.trans e.symm)
      simp only [hl, hr, if_true, false_and, if_false, zero_sub, Pi.neg_apply, true_or] at hf ⊢
      rw [hf]; ring
    · by_cases hr : (D.G.face k).right = i
      · simp only [hl, hr, if_true, true_and, hi, if_false, sub_zero, or_true] at hf ⊢
        rw [hf]; ring
      · simp [hl, hr]

/-- What lies across a face of a cell is the boundary value or a value of the array. -/
theorem nb_within (hG : D.G.Ok) {a b : ℝ} {u : ℕ → Fin nv → ℝ} (hw : D.Within a b u) {i k : ℕ} (hk : k ∈ D.facesOf i) (v : Fin nv) : a ≤ D.nb u i k v ∧ D.nb u i k v ≤ b := by
  obtain ⟨h1, h2, h3, h4, h5⟩ := hG.kind (mem_range.1 (mem_filter.1 hk).1)
  unfold nb
  split_ifs with hb hl
  · exact hw.1
  · exact hw.2 _ (h5 (by omega)) v
  · exact hw.2 _ (by unfold Geo.rows; omega) v

theorem explicit_cell (hG : D.G.Ok) {gs : GradScheme} (hp : D.Plain gs) (u : ℕ → Fin nv → ℝ) (cfl : ℝ) {i : ℕ} (hi : i < D.G.m.nelem) (v : Fin nv) :
    D.explicit gs cfl u i v = (1 - cfl * D.timestep i / D.G.ar i * D.load i) * u i v + ∑ k ∈ D.facesOf i, cfl * D.timestep i / D.G.ar i * D.wt k * D.nb u i k v +
      cfl * D.timestep i / D.G.ar i * (D.source (D.G.rc i) (u i) v * D.G.ar i) := by
  unfold explicit
  rw [if_pos hi]
  rw [residual_cell hG hp u hi v]
  have e : ∑ k ∈ D.facesOf i, D.wt k * (D.nb u i k v - u i v) = ∑ k ∈ D.facesOf i, D.wt k * D.nb u i k v - D.load i * u i v := by
    rw [load, sum_mul, ← sum_sub_distrib]
    exact sum_congr rfl fun k _ => by ring
  have e2 : ∑ k ∈ D.facesOf i, cfl * D.timestep i / D.G.ar i * D.wt k * D.nb u i k v = cfl * D.timestep i / D.G.ar i * ∑ k ∈ D.facesOf i, D.wt k * D.nb u i k v := by
    rw [mul_sum]; exact sum_congr rfl fun k _ => by ring
  rw [e, e2]
  ring

end cell

/-! ### Explicit solver -/

section explicit
variable {D}

/-- C101: an explicit step at a CFL number for which the time step times the sum of the conductances of each cell is at most its area does not
take any value above a bound of the old values and the boundary value, if the source is not positive. -/
theorem C101_upper (hG : D.G.Ok) {gs : GradScheme} (hp : D.Plain gs) (hw : ∀ k, k < D.G.nface → 0 ≤ D.wt k) {cfl : ℝ}
    (hq : ∀ i, i < D.G.m.nelem → 0 ≤ cfl * D.timestep i / D.G.ar i) (hc : ∀ i, i < D.G.m.nelem → cfl * D.timestep i / D.G.ar i * D.load i ≤ 1)
    (har : ∀ i, i < D.G.m.nelem → 0 < D.G.ar i) {b : ℝ} (hb : D.bval ≤ b) {u : ℕ → Fin nv → ℝ} (hu : ∀ i, i < D.G.rows → ∀ v, u i v ≤ b)
    (hs : ∀ x w v, D.source x w v ≤ 0) {i : ℕ} (hi : i < D.G.rows) (v : Fin nv) : D.explicit gs cfl u i v ≤ b := by
  by_cases hi' : i < D.G.m.nelem
  · rw [explicit_cell hG hp u cfl hi' v]
    have hn : ∀ k ∈ D.facesOf i, D.nb u i k v ≤ b := fun k hk => by
      obtain ⟨h1, h2, h3, h4, h5⟩ := hG.kind (mem_range.1 (mem_filter.1 hk).1)
      unfold nb
      split_ifs with hb' hl
      · exact hb
      · exact hu _ (h5 (by omega)) v
      · exact hu _ (by unfold Geo.rows; omega) v
    have h1 : ∑ k ∈ D.facesOf i, cfl * D.timestep i / D.G.ar i * D.wt k * D.nb u i k v ≤ cfl * D.timestep i / D.G.ar i * D.load i * b := by
      rw [load, mul_sum, sum_mul]
      exact sum_le_sum fun k hk => mul_le_mul_of_nonneg_left (hn k hk) (mul_nonneg (hq i hi') (hw k (mem_range.1 (mem_filter.1 hk).1)))
    have h2 : (1 - cfl * D.timestep i / D.G.ar i * D.load i) * u i v ≤ (1 - cfl * D.timestep i / D.G.ar i * D.load i) * b :=
      mul_le_mul_of_nonneg_left (hu i hi v) (by linarith [hc i hi'])
    have h3 : cfl * D.timestep i / D.G.ar i * (D.source (D.G.rc i) (u i) v * D.G.ar i) ≤ 0 :=
      mul_nonpos_of_nonneg_of_nonpos (hq i hi') (mul_nonpos_of_nonpos_of_nonneg (hs _ _ _) (har i hi').le)
    linarith
  · unfold explicit; rw [if_neg hi']; exact hu i hi v

/-- C101: nor below a bound, if the source is not negative. -/
theorem C101_lower (hG : D.G.Ok) {gs : GradScheme} (hp : D.Plain gs) (hw : ∀ k, k < D.G.nface → 0 ≤ D.wt k) {cfl : ℝ}
    (hq : ∀ i, i < D.G.m.nelem → 0 ≤ cfl * D.timestep i / D.G.ar i) (hc : ∀ i, i < D.G.m.nelem → cfl * D.timestep i / D.G.ar i * D.load i ≤ 1)
    (har : ∀ i, i < D.G.m.nelem → 0 < D.G.ar i) {a : ℝ} (ha : a ≤ D.bval) {u : ℕ → Fin nv → ℝ} (hu : ∀ i, i < D.G.rows → ∀ v, a ≤ u i v)
    (hs : ∀ x w v, 0 ≤ D.source x w v) {i : ℕ} (hi : i < D.G.rows) (v : Fin nv) : a ≤ D.explicit gs cfl u i v := by
  by_cases hi' : i < D.G.m.nelem
  · rw [explicit_cell hG hp u cfl hi' v]
    have hn : ∀ k ∈ D.facesOf i, a ≤ D.nb u i k v := fun k hk => by
      obtain ⟨h1, h2, h3, h4, h5⟩ := hG.kind (mem_range.1 (mem_filter.1 hk).1)
      unfold nb
      split_ifs with hb' hl
      · exact ha
      · exact hu _ (h5 (by omega)) v
      · exact hu _ (by unfold Geo.rows; omega) v
    have h1 : cfl * D.timestep i / D.G.ar i * D.load i * a ≤ ∑ k ∈ D.facesOf i, cfl * D.timestep i / D.G.ar i * D.wt k * D.nb u i k v := by
      rw [load, mul_sum, sum_mul]
      exact sum_le_sum fun k hk => mul_le_mul_of_nonneg_left (hn k hk) (mul_nonneg (hq i hi') (hw k (mem_range.1 (mem_filter.1 hk).1)))
    have h2 : (1 - cfl * D.timestep i / D.G.ar i * D.load i) * a ≤ (1 - cfl * D.timestep i / D.G.ar i * D.load i) * u i v :=
      mul_le_mul_of_nonneg_left (hu i hi v) (by linarith [hc i hi'])
    have h3 : 0 ≤ cfl * D.timestep i / D.G.ar i * (D.source (D.G.rc i) (u i) v * D.G.ar i) :=
      mul_nonneg (hq i hi') (mul_nonneg (hs _ _ _) (har i hi').le)
    linarith
  · unfold explicit; rw [if_neg hi']; exact hu i hi v

/-- C101, exact: without source, explicit steps keep the values between all bounds of the old values and the boundary value exactly if the time step times the sum of
the conductances of each cell is at most its area. -/
theorem C101_step_iff [NeZero nv] (hG : D.G.Ok) {gs : GradScheme} (hp : D.Plain gs) (hw : ∀ k, k < D.G.nface → 0 ≤ D.wt k) (hnu : 0 < D.nu)
    (har : ∀ i, i < D.G.m.nelem → 0 < D.G.ar i) (hs : D.NoSource) {cfl : ℝ} (h0 : 0 ≤ cfl) :
    (∀ a b u, D.Within a b u → D.Within a b (D.explicit gs cfl u)) ↔ ∀ i, i < D.G.m.nelem → cfl * D.timestep i / D.G.ar i * D.load i ≤ 1 := by
  have hq : ∀ i, i < D.G.m.nelem → 0 ≤ cfl * D.timestep i / D.G.ar i := fun i hi =>
    div_nonneg (mul_nonneg h0 (D.C53_timestep hG hnu hi).2.2.le) (har i hi).le
  constructor
  · intro h i hi
    let u : ℕ → Fin nv → ℝ := fun j _ => if j = i then D.bval + 1 else D.bval
    have hin : D.Within D.bval (D.bval + 1) u := ⟨⟨le_rfl, by linarith⟩, fun j _ v => by
      show D.bval ≤ (if j = i then D.bval + 1 else D.bval) ∧ (if j = i then D.bval + 1 else D.bval) ≤ D.bval + 1
      split_ifs <;> constructor <;> linarith⟩
    have hr := ((h _ _ u hin).2 i (by unfold Geo.rows; omega) 0).1
    rw [explicit_cell hG hp u cfl hi 0] at hr
    have hn : ∀ k ∈ D.facesOf i, D.nb u i k 0 = D.bval := fun k hk => by
      obtain ⟨h1, h2, h3, h4, h5⟩ := hG.kind (mem_range.1 (mem_filter.1 hk).1)
      unfold nb
      split_ifs with hb' hl
      · rfl
      · show (if (D.G.face k).right = i then D.bval + 1 else D.bval) = _
        rw [if_neg fun e => h2 (hl.trans e.symm)]
      · show (if (D.G.face k).left = i then D.bval + 1 else D.bval) = _
        rw [if_neg hl]
    rw [sum_congr rfl fun k hk => by rw [hn k hk], hs, ← sum_mul, ← mul_sum] at hr
    have hui : u i 0 = D.bval + 1 := if_pos rfl
    rw [hui] at hr
    change _ ≤ _ + cfl * D.timestep i / D.G.ar i * D.load i * D.bval + _ at hr
    simp only [Pi.zero_apply, zero_mul, mul_zero, add_zero] at hr
    linarith
  · intro hc a b u hu
    exact ⟨hu.1, fun i hi v => ⟨C101_lower hG hp hw hq hc har hu.1.1 (fun i hi v => (hu.2 i hi v).1) (fun x w v => by rw [hs]; rfl) hi v,
      C101_upper hG hp hw hq hc har hu.1.2 (fun i hi v => (hu.2 i hi v).2) (fun x w v => by rw [hs]; rfl) hi v⟩⟩

/-- C101: whole runs of the explicit solver stay between all bounds of the initial values and the boundary value, if the CFL number of the configuration is small enough in
the sense of `C101_step_iff`. -/
theorem C101_run {D : Diff 1} (hG : D.G.Ok) {gs : GradScheme} (hp : D.Plain gs) (hw : ∀ k, k < D.G.nface → 0 ≤ D.wt k) (hnu : 0 < D.nu)
    (har : ∀ i, i < D.G.m.nelem → 0 < D.G.ar i) (hs : D.NoSource) {c : Conf} (h0 : 0 ≤ c.cflinit)
    (hc : ∀ i, i < D.G.m.nelem → c.cflinit * D.timestep i / D.G.ar i * D.load i ≤ 1) {a b : ℝ} {u : ℕ → Fin 1 → ℝ} (hu : D.Within a b u) {n : ℕ} {s : Mem (ℕ → Fin 1 → ℝ)}
    (ht : traj forwardEuler (D.solver gs) c u n = some s) : D.Within a b s.u := by
  induction n generalizing s with
  | zero => simp only [traj, Option.some.injEq] at ht; subst ht; exact hu
  | succ n ih =>
    obtain ⟨s', h1, h2⟩ := Option.bind_eq_some_iff.1 (show (traj forwardEuler (D.solver gs) c u n).bind (body forwardEuler (D.solver gs) c) = some s from ht)
    unfold body at h2
    split at h2
    · cases h2
    · cases h2
      exact (C101_step_iff hG hp hw hnu har hs h0).2 hc a b _ (ih h1)

end explicit

/-! ### Implicit solver -/

section implicit
variable {D}

theorem num_self {i : ℕ} (hi : i < D.G.m.nelem) (j : ℕ) : numbering D.G.m false id j = some i ↔ j = i := by
  unfold numbering
  by_cases h : j < D.G.m.nelem
  · simp [h]
  · simp only [h, if_false, Bool.false_eq_true]
    exact ⟨fun e => (by cases e), fun e => absurd (e ▸ hi) h⟩

/-- Row of the assembled matrix times a vector. Boundary blocks are `κ` times those of the code. -/
theorem jac_row (hG : D.G.Ok) (hn : D.G.m.nconnface = 0) {κ : ℝ} {n : ℕ} {A : ℕ × ℕ → Blk (Fin nv)}
    (hA : AssembleJac D.G (numbering D.G.m false id) (fun k => κ • D.blk k) D.blk D.blk n (fun _ => 0) A) (x : ℕ → Fin nv → ℝ) {i : ℕ} (hi : i < D.G.m.nelem) (v : Fin nv) :
    ∑ q ∈ range D.G.m.nelem, ∑ c, A (i, q) v c * x q c =
      ∑ k ∈ D.facesOf i, D.wt k * if k < D.G.m.nbface then κ / 2 * x i v else x i v - D.nb x i k v := by
  have e1 : ∀ q, ∑ c, A (i, q) v c * x q c = ∑ k ∈ range D.G.nface, ∑ c, (amtAt (i, q) (jacUpds D.G (numbering D.G.m false id) (fun k => κ • D.blk k) D.blk D.blk k) : Blk (Fin nv)) v c * x q c := by
    intro q
    rw [sum_comm]
    refine sum_congr rfl fun c _ => ?_
    rw [C50_schedule hG hA, zero_add, Finset.sum_apply, Finset.sum_apply, sum_mul]
  rw [sum_congr rfl fun q _ => e1 q, sum_comm, facesOf, sum_filter]
  refine sum_congr rfl fun k hk => ?_
  obtain ⟨h1, h2, h3, h4, h5⟩ := hG.kind (mem_range.1 hk)
  have hd : ∀ (q : ℕ) (t : ℝ) , ∑ c, (if v = c then t else 0) * x q c = t * x q v := fun q t => by simp
  by_cases hb : k < D.G.m.nbface
  · have hr : (D.G.face k).right ≠ i := by rw [h3 hb]; omega
    simp only [jacUpds, hb, if_true, hr, or_false, amtAt_ent, num_self hi]
    by_cases hl : (D.G.face k).left = i
    · simp only [hl, true_and, if_true]
      have e : ∀ q ∈ range D.G.m.nelem, ∑ c, (if numbering D.G.m false id i = some q then -(κ • D.blk k) else 0 : Blk (Fin nv)) v c * x q c =
          if q = i then κ * -D.coef k * x q v else 0 := by
        intro q hq
        simp only [num_self (mem_range.1 hq)]
        by_cases hqi : q = i
        · rw [if_pos hqi.symm, if_pos hqi, ← hd]
          refine sum_congr rfl fun c _ => ?_
          simp only [Pi.neg_apply, Pi.smul_apply, blk_eq, smul_eq_mul]
          split_ifs <;> ring
        · rw [if_neg (Ne.symm hqi), if_neg hqi]; simp
      rw [sum_congr rfl e, sum_ite_eq' (range D.G.m.nelem) i, if_pos (mem_range.2 hi), wt_eq, if_pos hb]
      ring
    · simp [hl]
  · have hin : D.G.inner k := by
      have h6 : k < D.G.nface := mem_range.1 hk
      rw [hG.nface_eq, hn] at h6
      exact ⟨by omega, by omega⟩
    have hrn := h4.1 hin
    simp only [jacUpds, hb, if_false, hin, if_true, amtAt_append, amtAt_ent, num_self hi]
    have e : ∀ (P : Prop) [Decidable P] (j : ℕ), j < D.G.m.nelem → ∀ B : Blk (Fin nv),
        ∑ q ∈ range D.G.m.nelem, ∑ c, (if P ∧ numbering D.G.m false id j = some q then B else 0 : Blk (Fin nv)) v c * x q c = if P then ∑ c, B v c * x j c else 0 := by
      intro P _ j hj B
      have : ∀ q ∈ range D.G.m.nelem, ∑ c, (if P ∧ numbering D.G.m false id j = some q then B else 0 : Blk (Fin nv)) v c * x q c =
          if q = j then (if P then ∑ c, B v c * x j c else 0) else 0 := by
        intro q hq
        simp only [num_self (mem_range.1 hq)]
        by_cases hqj : q = j
        · subst hqj
          by_cases hP : P <;> simp [hP]
        · simp [hqj, Ne.symm hqj]
      rw [sum_congr rfl this, sum_ite_eq' (range D.G.m.nelem) j, if_pos (mem_range.2 hj)]
    simp only [Pi.add_apply, add_mul, sum_add_distrib]
    rw [e _ _ h1, e _ _ hrn, e _ _ h1, e _ _ hrn]
    have hbx : ∀ j, ∑ c, D.blk k v c * x j c = D.coef k * x j v := fun j => by rw [← hd]; exact sum_congr rfl fun c _ => by rw [blk_eq]
    have hbn : ∀ j, ∑ c, (-D.blk k) v c * x j c = -(D.coef k * x j v) := fun j => by
      rw [← hbx, ← sum_neg_distrib]; exact sum_congr rfl fun c _ => by simp
    simp only [hbx, hbn]
    rw [wt_eq, if_neg hb]
    unfold nb
    rw [if_neg hb]
    by_cases hl : (D.G.face k).left = i
    · have hr : (D.G.face k).right ≠ i := fun e => h2 (hl.trans e.symm)
      simp only [hl, hr, if_true, if_false, true_or]
      ring
    · by_cases hr : (D.G.face k).right = i
      · simp only [hl, hr, if_true, if_false, or_true]
        ring
      · simp [hl, hr]

/-- Balance of a cell over an implicit step. -/
theorem implicit_cell (hG : D.G.Ok) (hn : D.G.m.nconnface = 0) {gs : GradScheme} (hp : D.Plain gs) {κ cfl : ℝ} {u u' : ℕ → Fin nv → ℝ}
    (h : D.Implicit gs (fun k => κ • D.blk k) cfl u u') {i : ℕ} (hi : i < D.G.m.nelem) (v : Fin nv) :
    D.G.ar i / (cfl * D.timestep i) * (u' i v - u i v) =
      ∑ k ∈ D.facesOf i, D.wt k * (if k < D.G.m.nbface then D.bval - u i v - κ / 2 * (u' i v - u i v) else D.nb u' i k v - u' i v) + D.source (D.G.rc i) (u i) v * D.G.ar i := by
  obtain ⟨n, A, hA, he⟩ := h
  have e := he i hi v
  have hj := jac_row hG hn hA (fun q c => u' q c - u q c) hi v
  rw [hj, residual_cell hG hp u hi v] at e
  have e2 : D.G.ar i / (cfl * D.timestep i) * (u' i v - u i v) = ∑ k ∈ D.facesOf i, D.wt k * (D.nb u i k v - u i v) -
      ∑ k ∈ D.facesOf i, D.wt k * (if k < D.G.m.nbface then κ / 2 * (u' i v - u i v) else (u' i v - u i v) - D.nb (fun q c => u' q c - u q c) i k v) +
      D.source (D.G.rc i) (u i) v * D.G.ar i := by linarith
  rw [e2, ← sum_sub_distrib]
  congr 1
  refine sum_congr rfl fun k _ => ?_
  unfold nb
  split_ifs <;> ring

/-- Splitting of the balance into boundary faces and inner faces. -/
theorem implicit_split (hG : D.G.Ok) (hn : D.G.m.nconnface = 0) {gs : GradScheme} (hp : D.Plain gs) {κ cfl : ℝ} {u u' : ℕ → Fin nv → ℝ}
    (h : D.Implicit gs (fun k => κ • D.blk k) cfl u u') {i : ℕ} (hi : i < D.G.m.nelem) (v : Fin nv) :
    (D.G.ar i / (cfl * D.timestep i) + κ / 2 * D.bload i) * u' i v = (D.G.ar i / (cfl * D.timestep i) - (1 - κ / 2) * D.bload i) * u i v + D.bload i * D.bval +
      ∑ k ∈ (D.facesOf i).filter (fun k => ¬ k < D.G.m.nbface), D.wt k * (D.nb u' i k v - u' i v) + D.source (D.G.rc i) (u i) v * D.G.ar i := by
  have e := implicit_cell hG hn hp h hi v
  rw [← sum_filter_add_sum_filter_not (D.facesOf i) (fun k => k < D.G.m.nbface)] at e
  rw [sum_congr (g := fun k => D.wt k * (D.bval - u i v - κ / 2 * (u' i v - u i v))) rfl (fun k hk => by rw [if_pos (mem_filter.1 hk).2]),
    sum_congr (s₁ := (D.facesOf i).filter fun k => ¬ k < D.G.m.nbface) (g := fun k => D.wt k * (D.nb u' i k v - u' i v)) rfl
      (fun k hk => by rw [if_neg (mem_filter.1 hk).2]), ← sum_mul] at e
  change _ = D.bload i * _ + _ + _ at e
  linarith

/-- Cells and values: the array of one process has no ghost cells. -/
theorem rows_one (hn : D.G.m.nconnface = 0) : D.G.rows = D.G.m.nelem := by unfold Geo.rows; omega

theorem inner_right (hG : D.G.Ok) (hn : D.G.m.nconnface = 0) {k : ℕ} (hk : k < D.G.nface) (hb : ¬ k < D.G.m.nbface) : (D.G.face k).right < D.G.m.nelem := by
  have := (hG.kind hk).2.2.2.2 (by omega)
  omega

/-- Upper bound for an implicit step with boundary blocks `κ` times those of the code. -/
theorem implicit_upper (hG : D.G.Ok) (hn : D.G.m.nconnface = 0) {gs : GradScheme} (hp : D.Plain gs) (hw : ∀ k, k < D.G.nface → 0 ≤ D.wt k) {κ cfl : ℝ} (hκ : 0 ≤ κ)
    {u u' : ℕ → Fin nv → ℝ} (h : D.Implicit gs (fun k => κ • D.blk k) cfl u u') (hm : ∀ i, i < D.G.m.nelem → 0 < D.G.ar i / (cfl * D.timestep i))
    {v : Fin nv} {b : ℝ} (hq : ∀ i, i < D.G.m.nelem → (D.G.ar i / (cfl * D.timestep i) - (1 - κ / 2) * D.bload i) * u i v + D.bload i * D.bval +
      D.source (D.G.rc i) (u i) v * D.G.ar i ≤ (D.G.ar i / (cfl * D.timestep i) + κ / 2 * D.bload i) * b) {i : ℕ} (hi : i < D.G.m.nelem) : u' i v ≤ b := by
  obtain ⟨j, hj, hmax⟩ := exists_max_image (range D.G.m.nelem) (fun i => u' i v) ⟨i, mem_range.2 hi⟩
  have hj := mem_range.1 hj
  refine (hmax i (mem_range.2 hi)).trans ?_
  have e := implicit_split hG hn hp h hj v
  have hs : ∑ k ∈ (D.facesOf j).filter (fun k => ¬ k < D.G.m.nbface), D.wt k * (D.nb u' j k v - u' j v) ≤ 0 := by
    refine sum_nonpos fun k hk => ?_
    obtain ⟨hk1, hkb⟩ := mem_filter.1 hk
    have hkn := mem_range.1 (mem_filter.1 hk1).1
    refine mul_nonpos_of_nonneg_of_nonpos (hw k hkn) (sub_nonpos.2 ?_)
    unfold nb
    rw [if_neg hkb]
    split_ifs
    · exact hmax _ (mem_range.2 (inner_right hG hn hkn hkb))
    · exact hmax _ (mem_range.2 (hG.kind hkn).1)
  have hbl : 0 ≤ D.bload j := sum_nonneg fun k hk => hw k (mem_range.1 (mem_filter.1 (mem_filter.1 hk).1).1)
  have hpos : 0 < D.G.ar j / (cfl * D.timestep j) + κ / 2 * D.bload j := by have := hm j hj; positivity
  refine le_of_mul_le_mul_left ?_ hpos
  have := hq j hj
  linarith

/-- Lower bound. -/
theorem implicit_lower (hG : D.G.Ok) (hn : D.G.m.nconnface = 0) {gs : GradScheme} (hp : D.Plain gs) (hw : ∀ k, k < D.G.nface → 0 ≤ D.wt k) {κ cfl : ℝ} (hκ : 0 ≤ κ)
    {u u' : ℕ → Fin nv → ℝ} (h : D.Implicit gs (fun k => κ • D.blk k) cfl u u') (hm : ∀ i, i < D.G.m.nelem → 0 < D.G.ar i / (cfl * D.timestep i))
    {v : Fin nv} {b : ℝ} (hq : ∀ i, i < D.G.m.nelem → (D.G.ar i / (cfl * D.timestep i) + κ / 2 * D.bload i) * b ≤
      (D.G.ar i / (cfl * D.timestep i) - (1 - κ / 2) * D.bload i) * u i v + D.bload i * D.bval + D.source (D.G.rc i) (u i) v * D.G.ar i) {i : ℕ} (hi : i < D.G.m.nelem) :
    b ≤ u' i v := by
  obtain ⟨j, hj, hmin⟩ := exists_min_image (range D.G.m.nelem) (fun i => u' i v) ⟨i, mem_range.2 hi⟩
  have hj := mem_range.1 hj
  refine le_trans ?_ (hmin i (mem_range.2 hi))
  have e := implicit_split hG hn hp h hj v
  have hs : 0 ≤ ∑ k ∈ (D.facesOf j).filter (fun k => ¬ k < D.G.m.nbface), D.wt k * (D.nb u' j k v - u' j v) := by
    refine sum_nonneg fun k hk => ?_
    obtain ⟨hk1, hkb⟩ := mem_filter.1 hk
    have hkn := mem_range.1 (mem_filter.1 hk1).1
    refine mul_nonneg (hw k hkn) (sub_nonneg.2 ?_)
    unfold nb
    rw [if_neg hkb]
    split_ifs
    · exact hmin _ (mem_range.2 (inner_right hG hn hkn hkb))
    · exact hmin _ (mem_range.2 (hG.kind hkn).1)
  have hbl : 0 ≤ D.bload j := sum_nonneg fun k hk => hw k (mem_range.1 (mem_filter.1 (mem_filter.1 hk).1).1)
  have hpos : 0 < D.G.ar j / (cfl * D.timestep j) + κ / 2 * D.bload j := by have := hm j hj; positivity
  refine le_of_mul_le_mul_left ?_ hpos
  have := hq j hj
  linarith

/-- Implicit systems have exactly one solution. -/
theorem implicit_solvable (hG : D.G.Ok) (hn : D.G.m.nconnface = 0) {gs : GradScheme} (hw : ∀ k, k < D.G.nface → 0 ≤ D.wt k) {κ cfl : ℝ} (hκ : 0 ≤ κ)
    (hm : ∀ i, i < D.G.m.nelem → 0 < D.G.ar i / (cfl * D.timestep i)) (u : ℕ → Fin nv → ℝ) : ∃ u', D.Implicit gs (fun k => κ • D.blk k) cfl u u' := by
  obtain ⟨A, hA⟩ := assembleJac_exists (G := D.G) (gcol := numbering D.G.m false id) (Lb := fun k => κ • D.blk k) (L := D.blk) (U := D.blk) one_pos (fun _ => 0)
  let N := D.G.m.nelem
  let ext : (Fin N → Fin nv → ℝ) → ℕ → Fin nv → ℝ := fun y q => if hq : q < N then y ⟨q, hq⟩ else 0
  have hext : ∀ (y : Fin N → Fin nv → ℝ) (q : ℕ) (hq : q < N), ext y q = y ⟨q, hq⟩ := fun y q hq => dif_pos hq
  let f : (Fin N → Fin nv → ℝ) →ₗ[ℝ] (Fin N → Fin nv → ℝ) :=
    { toFun := fun y i v => (∑ q ∈ range N, ∑ c, A (i, q) v c * ext y q c) + D.G.ar i / (cfl * D.timestep i) * y i v
      map_add' := fun y z => by
        funext i v
        have : ∀ q ∈ range N, ∑ c, A (i, q) v c * ext (y + z) q c = ∑ c, A (i, q) v c * ext y q c + ∑ c, A (i, q) v c * ext z q c := fun q hq => by
          rw [← sum_add_distrib]
          refine sum_congr rfl fun c _ => ?_
          rw [hext _ q (mem_range.1 hq), hext _ q (mem_range.1 hq), hext _ q (mem_range.1 hq), Pi.add_apply, Pi.add_apply, mul_add]
        simp only [Pi.add_apply]
        rw [sum_congr rfl this, sum_add_distrib]
        ring
      map_smul' := fun a y => by
        funext i v
        have : ∀ q ∈ range N, ∑ c, A (i, q) v c * ext (a • y) q c = a * ∑ c, A (i, q) v c * ext y q c := fun q hq => by
          rw [mul_sum]
          refine sum_congr rfl fun c _ => ?_
          rw [hext _ q (mem_range.1 hq), hext _ q (mem_range.1 hq), Pi.smul_apply, Pi.smul_apply, smul_eq_mul]
          ring
        simp only [Pi.smul_apply, smul_eq_mul, RingHom.id_apply]
        rw [sum_congr rfl this, ← mul_sum]
        ring }
  have hinj : Function.Injective f := by
    rw [← LinearMap.ker_eq_bot, LinearMap.ker_eq_bot']
    intro y hy
    let Z : Diff nv := { D with bval := 0, source := fun _ _ => 0 }
    have hblk : Z.blk = D.blk := rfl
    have hstep : Z.Implicit .zero (fun k => κ • Z.blk k) cfl 0 (ext y) := ⟨1, A, hA, fun i hi v => by
      have h0 : Z.residual .zero (fun _ => 0) 0 0 i v = 0 := by
        rw [residual_cell (D := Z) hG (Or.inl rfl) 0 hi v]
        have : ∀ k, Z.nb (0 : ℕ → Fin nv → ℝ) i k v = 0 := fun k => by unfold nb; split_ifs <;> rfl
        simp [this, Z]
      rw [h0]
      have := congrFun (congrFun hy ⟨i, hi⟩) v
      simp only [Pi.zero_apply, sub_zero]
      rw [hext y i hi]
      exact this⟩
    have hz : ∀ i, i < N → ∀ v, ext y i v = 0 := fun i hi v => le_antisymm
      (implicit_upper (D := Z) hG hn (Or.inl rfl) hw hκ hstep hm (b := 0) (fun i _ => by simp [Z]) hi)
      (implicit_lower (D := Z) hG hn (Or.inl rfl) hw hκ hstep hm (b := 0) (fun i _ => by simp [Z]) hi)
    funext i v
    rw [← hext y i i.2]
    exact hz i i.2 v
  obtain ⟨y, hy⟩ := LinearMap.injective_iff_surjective.1 hinj fun i v => D.residual gs (fun _ => 0) u 0 i v
  refine ⟨fun q => u q + ext y q, 1, A, hA, fun i hi v => ?_⟩
  have := congrFun (congrFun hy ⟨i, hi⟩) v
  simp only [Pi.add_apply, add_sub_cancel_left]
  rw [hext y i hi]
  exact this

/-- C101: with boundary blocks twice those of the code, the derivatives of the boundary fluxes (see C53), implicit steps of any size keep the values between all bounds of the old
values and the boundary value. -/
theorem C101_implicit_doubled (hG : D.G.Ok) (hn : D.G.m.nconnface = 0) {gs : GradScheme} (hp : D.Plain gs) (hw : ∀ k, k < D.G.nface → 0 ≤ D.wt k) (hnu : 0 < D.nu)
    (har : ∀ i, i < D.G.m.nelem → 0 < D.G.ar i) (hs : D.NoSource) {cfl : ℝ} (h0 : 0 < cfl) :
    (∀ u, ∃ u', D.Implicit gs (fun k => (2 : ℝ) • D.blk k) cfl u u') ∧
    ∀ a b u u', D.Within a b u → D.Implicit gs (fun k => (2 : ℝ) • D.blk k) cfl u u' → D.Within a b u' := by
  have hm : ∀ i, i < D.G.m.nelem → 0 < D.G.ar i / (cfl * D.timestep i) := fun i hi => div_pos (har i hi) (mul_pos h0 (D.C53_timestep hG hnu hi).2.2)
  refine ⟨implicit_solvable hG hn hw (by norm_num) hm, fun a b u u' hu h => ⟨hu.1, fun i hi v => ?_⟩⟩
  rw [rows_one hn] at hi
  have hbl : ∀ i, 0 ≤ D.bload i := fun i => sum_nonneg fun k hk => hw k (mem_range.1 (mem_filter.1 (mem_filter.1 hk).1).1)
  constructor
  · refine implicit_lower hG hn hp hw (by norm_num) h hm (fun j hj => ?_) hi
    have h1 := mul_le_mul_of_nonneg_left (hu.2 j (by rw [rows_one hn]; exact hj) v).1 (hm j hj).le
    have h2 := mul_le_mul_of_nonneg_left hu.1.1 (hbl j)
    rw [hs]; simp only [Pi.zero_apply]; linarith
  · refine implicit_upper hG hn hp hw (by norm_num) h hm (fun j hj => ?_) hi
    have h1 := mul_le_mul_of_nonneg_left (hu.2 j (by rw [rows_one hn]; exact hj) v).2 (hm j hj).le
    have h2 := mul_le_mul_of_nonneg_left hu.1.2 (hbl j)
    rw [hs]; simp only [Pi.zero_apply]; linarith

/-- C101, exact: with the code's matrix implicit steps keep the values between all bounds exactly if the conductances of the boundary faces of each cell add up to at most twice
its area over its time step. -/
theorem C101_implicit_iff [NeZero nv] (hG : D.G.Ok) (hn : D.G.m.nconnface = 0) {gs : GradScheme} (hp : D.Plain gs) (hw : ∀ k, k < D.G.nface → 0 ≤ D.wt k) (hnu : 0 < D.nu)
    (har : ∀ i, i < D.G.m.nelem → 0 < D.G.ar i) (hs : D.NoSource) {cfl : ℝ} (h0 : 0 < cfl) :
    (∀ a b u u', D.Within a b u → D.Implicit gs D.blk cfl u u' → D.Within a b u') ↔
      ∀ i, i < D.G.m.nelem → D.bload i ≤ 2 * (D.G.ar i / (cfl * D.timestep i)) := by
  have hone : D.blk = fun k => (1 : ℝ) • D.blk k := by funext k; rw [one_smul]
  have hm : ∀ i, i < D.G.m.nelem → 0 < D.G.ar i / (cfl * D.timestep i) := fun i hi => div_pos (har i hi) (mul_pos h0 (D.C53_timestep hG hnu hi).2.2)
  have hbl : ∀ i, 0 ≤ D.bload i := fun i => sum_nonneg fun k hk => hw k (mem_range.1 (mem_filter.1 (mem_filter.1 hk).1).1)
  constructor
  · intro H i hi
    by_contra hlt
    have hlt := not_le.1 hlt
    let u : ℕ → Fin nv → ℝ := fun j _ => if j = i then D.bval + 1 else D.bval
    have hin : D.Within D.bval (D.bval + 1) u := ⟨⟨le_rfl, by linarith⟩, fun j _ v => by
      show D.bval ≤ (if j = i then D.bval + 1 else D.bval) ∧ (if j = i then D.bval + 1 else D.bval) ≤ D.bval + 1
      split_ifs <;> constructor <;> linarith⟩
    obtain ⟨u', h⟩ := implicit_solvable hG hn hw (κ := 1) (by norm_num) hm u
    have hup : ∀ j, j < D.G.m.nelem → u' j 0 ≤ D.bval := fun j hj => by
      refine implicit_upper hG hn hp hw (by norm_num) h hm (fun q hq => ?_) hj
      rw [hs]
      by_cases hqi : q = i
      · have : u q 0 = D.bval + 1 := if_pos hqi
        subst hqi
        rw [this]; simp only [Pi.zero_apply]; nlinarith
      · have : u q 0 = D.bval := if_neg hqi
        rw [this]; simp only [Pi.zero_apply]; nlinarith
    have e := implicit_split hG hn hp h hi 0
    have hui : u i 0 = D.bval + 1 := if_pos rfl
    rw [hs, hui] at e
    have hlow := ((H _ _ u u' hin (by rw [hone]; exact h)).2 i (by unfold Geo.rows; omega) 0).1
    have hu' : u' i 0 = D.bval := le_antisymm (hup i hi) hlow
    have hsum : ∑ k ∈ (D.facesOf i).filter (fun k => ¬ k < D.G.m.nbface), D.wt k * (D.nb u' i k 0 - u' i 0) ≤ 0 := by
      refine sum_nonpos fun k hk => ?_
      obtain ⟨hk1, hkb⟩ := mem_filter.1 hk
      have hkn := mem_range.1 (mem_filter.1 hk1).1
      refine mul_nonpos_of_nonneg_of_nonpos (hw k hkn) (sub_nonpos.2 ?_)
      rw [hu']
      unfold nb
      rw [if_neg hkb]
      split_ifs
      · exact hup _ (inner_right hG hn hkn hkb)
      · exact hup _ (hG.kind hkn).1
    rw [hu'] at e hsum
    simp only [Pi.zero_apply, zero_mul, add_zero] at e
    linarith
  · intro hc a b u u' hu h
    rw [hone] at h
    refine ⟨hu.1, fun i hi v => ?_⟩
    rw [rows_one hn] at hi
    constructor
    · refine implicit_lower hG hn hp hw (by norm_num) h hm (fun j hj => ?_) hi
      have h1 := mul_le_mul_of_nonneg_left (hu.2 j (by rw [rows_one hn]; exact hj) v).1 (show 0 ≤ D.G.ar j / (cfl * D.timestep j) - (1 - 1 / 2) * D.bload j by linarith [hc j hj])
      have h2 := mul_le_mul_of_nonneg_left hu.1.1 (hbl j)
      rw [hs]; simp only [Pi.zero_apply]; linarith
    · refine implicit_upper hG hn hp hw (by norm_num) h hm (fun j hj => ?_) hi
      have h1 := mul_le_mul_of_nonneg_left (hu.2 j (by rw [rows_one hn]; exact hj) v).2 (show 0 ≤ D.G.ar j / (cfl * D.timestep j) - (1 - 1 / 2) * D.bload j by linarith [hc j hj])
      have h2 := mul_le_mul_of_nonneg_left hu.1.2 (hbl j)
      rw [hs]; simp only [Pi.zero_apply]; linarith

/-- Specification: quadratic measure of the distance from the boundary value: values weighted with area over time step, and jumps across inner faces weighted with half the
conductances. -/
noncomputable def measure (D : Diff nv) (cfl : ℝ) (u : ℕ → Fin nv → ℝ) (v : Fin nv) : ℝ :=
  ∑ i ∈ range D.G.m.nelem, D.G.ar i / (cfl * D.timestep i) * (u i v - D.bval) ^ 2 +
    ∑ k ∈ (range D.G.nface).filter (fun k => ¬ k < D.G.m.nbface), D.wt k / 2 * (u (D.G.face k).right v - u (D.G.face k).left v) ^ 2

/-- Summation by parts. -/
theorem by_parts (hG : D.G.Ok) (hn : D.G.m.nconnface = 0) (s : ℕ → ℝ) (x : ℕ → Fin nv → ℝ) (v : Fin nv) :
    ∑ i ∈ range D.G.m.nelem, s i * ∑ k ∈ (D.facesOf i).filter (fun k => ¬ k < D.G.m.nbface), D.wt k * (D.nb x i k v - x i v) =
      -∑ k ∈ (range D.G.nface).filter (fun k => ¬ k < D.G.m.nbface), D.wt k * ((s (D.G.face k).right - s (D.G.face k).left) * (x (D.G.face k).right v - x (D.G.face k).left v)) := by
  have e1 : ∀ i ∈ range D.G.m.nelem, s i * ∑ k ∈ (D.facesOf i).filter (fun k => ¬ k < D.G.m.nbface), D.wt k * (D.nb x i k v - x i v) =
      ∑ k ∈ (range D.G.nface).filter (fun k => ¬ k < D.G.m.nbface),
        ((if i = (D.G.face k).left then s i * (D.wt k * (x (D.G.face k).right v - x i v)) else 0) +
          if i = (D.G.face k).right then s i * (D.wt k * (x (D.G.face k).left v - x i v)) else 0) := by
    intro i _
    rw [mul_sum]
    have : (D.facesOf i).filter (fun k => ¬ k < D.G.m.nbface) =
        ((range D.G.nface).filter (fun k => ¬ k < D.G.m.nbface)).filter (fun k => (D.G.face k).left = i ∨ (D.G.face k).right = i) := by
      unfold facesOf; rw [filter_filter, filter_filter]; congr 1; funext k; rw [and_comm]
    rw [this, sum_filter]
    refine sum_congr rfl fun k hk => ?_
    obtain ⟨hk1, hkb⟩ := mem_filter.1 hk
    have h2 := (hG.kind (mem_range.1 hk1)).2.1
    unfold nb
    rw [if_neg hkb]
    by_cases hl : (D.G.face k).left = i
    · have hr : (D.G.face k).right ≠ i := fun e => h2 (hl.trans e.symm)
      simp [hl, Ne.symm hr]
    · by_cases hr : (D.G.face k).right = i
      · simp [hl, hr, Ne.symm hl]
      · simp [hl, hr, Ne.symm hl, Ne.symm hr]
  rw [sum_congr rfl e1, sum_comm, ← sum_neg_distrib]
  refine sum_congr rfl fun k hk => ?_
  obtain ⟨hk1, hkb⟩ := mem_filter.1 hk
  have hk1 := mem_range.1 hk1
  rw [sum_add_distrib, sum_ite_eq', sum_ite_eq', if_pos (mem_range.2 (hG.kind hk1).1), if_pos (mem_range.2 (inner_right hG hn hk1 hkb))]
  ring

/-- C101: although not bounded by the old values, implicit steps of any size with the code's matrix do not increase the distance from the boundary value in the quadratic measure
(of that step size); the decrease is given. -/
theorem C101_implicit_measure (hG : D.G.Ok) (hn : D.G.m.nconnface = 0) {gs : GradScheme} (hp : D.Plain gs) (hw : ∀ k, k < D.G.nface → 0 ≤ D.wt k)
    (hs : D.NoSource) {cfl : ℝ} {u u' : ℕ → Fin nv → ℝ} (h : D.Implicit gs D.blk cfl u u') (v : Fin nv) :
    D.measure cfl u' v = D.measure cfl u v - (∑ i ∈ range D.G.m.nelem, D.bload i / 2 * (u' i v + u i v - 2 * D.bval) ^ 2 +
      ∑ k ∈ (range D.G.nface).filter (fun k => ¬ k < D.G.m.nbface), D.wt k / 2 *
        ((u' (D.G.face k).right v + u (D.G.face k).right v) - (u' (D.G.face k).left v + u (D.G.face k).left v)) ^ 2) ∧
    D.measure cfl u' v ≤ D.measure cfl u v := by
  have hone : D.blk = fun k => (1 : ℝ) • D.blk k := by funext k; rw [one_smul]
  rw [hone] at h
  have key := by_parts hG hn (fun i => u' i v + u i v - 2 * D.bval) u' v
  have e1 : ∀ i ∈ range D.G.m.nelem, (u' i v + u i v - 2 * D.bval) * ∑ k ∈ (D.facesOf i).filter (fun k => ¬ k < D.G.m.nbface), D.wt k * (D.nb u' i k v - u' i v) =
      D.G.ar i / (cfl * D.timestep i) * (u' i v - D.bval) ^ 2 - D.G.ar i / (cfl * D.timestep i) * (u i v - D.bval) ^ 2 + D.bload i / 2 * (u' i v + u i v - 2 * D.bval) ^ 2 := by
    intro i hi
    have e := implicit_split hG hn hp h (mem_range.1 hi) v
    rw [hs] at e
    simp only [Pi.zero_apply, zero_mul, add_zero] at e
    linear_combination -(u' i v + u i v - 2 * D.bval) * e
  rw [sum_congr rfl e1, sum_add_distrib, sum_sub_distrib] at key
  have e2 : ∑ k ∈ (range D.G.nface).filter (fun k => ¬ k < D.G.m.nbface), D.wt k *
      (((u' (D.G.face k).right v + u (D.G.face k).right v - 2 * D.bval) - (u' (D.G.face k).left v + u (D.G.face k).left v - 2 * D.bval)) *
        (u' (D.G.face k).right v - u' (D.G.face k).left v)) =
      ∑ k ∈ (range D.G.nface).filter (fun k => ¬ k < D.G.m.nbface), D.wt k / 2 * (u' (D.G.face k).right v - u' (D.G.face k).left v) ^ 2 -
      ∑ k ∈ (range D.G.nface).filter (fun k => ¬ k < D.G.m.nbface), D.wt k / 2 * (u (D.G.face k).right v - u (D.G.face k).left v) ^ 2 +
      ∑ k ∈ (range D.G.nface).filter (fun k => ¬ k < D.G.m.nbface), D.wt k / 2 *
        ((u' (D.G.face k).right v + u (D.G.face k).right v) - (u' (D.G.face k).left v + u (D.G.face k).left v)) ^ 2 := by
    rw [← sum_sub_distrib, ← sum_add_distrib]
    exact sum_congr rfl fun k _ => by ring
  rw [e2] at key
  have eq : D.measure cfl u' v = D.measure cfl u v - (∑ i ∈ range D.G.m.nelem, D.bload i / 2 * (u' i v + u i v - 2 * D.bval) ^ 2 +
      ∑ k ∈ (range D.G.nface).filter (fun k => ¬ k < D.G.m.nbface), D.wt k / 2 *
        ((u' (D.G.face k).right v + u (D.G.face k).right v) - (u' (D.G.face k).left v + u (D.G.face k).left v)) ^ 2) := by
    unfold measure
    linarith
  refine ⟨eq, ?_⟩
  rw [eq]
  have hbl : ∀ i, 0 ≤ D.bload i := fun i => sum_nonneg fun k hk => hw k (mem_range.1 (mem_filter.1 (mem_filter.1 hk).1).1)
  have p1 : 0 ≤ ∑ i ∈ range D.G.m.nelem, D.bload i / 2 * (u' i v + u i v - 2 * D.bval) ^ 2 :=
    sum_nonneg fun i _ => mul_nonneg (by linarith [hbl i]) (pow_two_nonneg _)
  have p2 : 0 ≤ ∑ k ∈ (range D.G.nface).filter (fun k => ¬ k < D.G.m.nbface), D.wt k / 2 *
        ((u' (D.G.face k).right v + u (D.G.face k).right v) - (u' (D.G.face k).left v + u (D.G.face k).left v)) ^ 2 :=
    sum_nonneg fun k hk => mul_nonneg (by linarith [hw k (mem_range.1 (mem_filter.1 hk).1)]) (pow_two_nonneg _)
  linarith

/-- C101: steady states. Where the residual vanishes and there is no source, all cells with a boundary face of positive conductance have the boundary value and
neighbours across faces of positive conductance are equal: on every mesh connected through such faces the boundary value everywhere is the only steady state. -/
theorem C101_steady (hG : D.G.Ok) (hn : D.G.m.nconnface = 0) {gs : GradScheme} (hp : D.Plain gs) (hw : ∀ k, k < D.G.nface → 0 ≤ D.wt k)
    (hs : D.NoSource) {u : ℕ → Fin nv → ℝ} {v : Fin nv} (h : ∀ i, i < D.G.m.nelem → D.residual gs (fun _ => 0) u 0 i v = 0) {k : ℕ} (hk : k < D.G.nface) (hpos : 0 < D.wt k) :
    u (D.G.face k).left v = if k < D.G.m.nbface then D.bval else u (D.G.face k).right v := by
  have key := by_parts hG hn (fun i => u i v - D.bval) u v
  have e1 : ∀ i ∈ range D.G.m.nelem, (u i v - D.bval) * ∑ k ∈ (D.facesOf i).filter (fun k => ¬ k < D.G.m.nbface), D.wt k * (D.nb u i k v - u i v) =
      D.bload i * (u i v - D.bval) ^ 2 := by
    intro i hi
    have e := h i (mem_range.1 hi)
    rw [residual_cell hG hp u (mem_range.1 hi) v, hs, ← sum_filter_add_sum_filter_not (D.facesOf i) (fun k => k < D.G.m.nbface)] at e
    rw [sum_congr (g := fun k => D.wt k * (D.bval - u i v)) rfl (fun k hk => by unfold nb; rw [if_pos (mem_filter.1 hk).2]), ← sum_mul] at e
    change D.bload i * _ + _ + _ = _ at e
    simp only [Pi.zero_apply, zero_mul, add_zero] at e
    linear_combination (u i v - D.bval) * e
  rw [sum_congr rfl e1] at key
  have hbl : ∀ i, 0 ≤ D.bload i := fun i => sum_nonneg fun k hk => hw k (mem_range.1 (mem_filter.1 (mem_filter.1 hk).1).1)
  have p1 : ∀ i ∈ range D.G.m.nelem, 0 ≤ D.bload i * (u i v - D.bval) ^ 2 := fun i _ => mul_nonneg (hbl i) (pow_two_nonneg _)
  have p2 : ∀ k ∈ (range D.G.nface).filter (fun k => ¬ k < D.G.m.nbface), 0 ≤ D.wt k *
      (((u (D.G.face k).right v - D.bval) - (u (D.G.face k).left v - D.bval)) * (u (D.G.face k).right v - u (D.G.face k).left v)) := fun k hk =>
    mul_nonneg (hw k (mem_range.1 (mem_filter.1 hk).1)) (by nlinarith [pow_two_nonneg (u (D.G.face k).right v - u (D.G.face k).left v)])
  have s1 := sum_nonneg p1
  have s2 := sum_nonneg p2
  have z1 : ∑ i ∈ range D.G.m.nelem, D.bload i * (u i v - D.bval) ^ 2 = 0 := by linarith
  have z2 : ∑ k ∈ (range D.G.nface).filter (fun k => ¬ k < D.G.m.nbface), D.wt k *
      (((u (D.G.face k).right v - D.bval) - (u (D.G.face k).left v - D.bval)) * (u (D.G.face k).right v - u (D.G.face k).left v)) = 0 := by linarith
  split_ifs with hb
  · have hl := (hG.kind hk).1
    have := (sum_eq_zero_iff_of_nonneg p1).1 z1 _ (mem_range.2 hl)
    have hpb : 0 < D.bload (D.G.face k).left := by
      refine lt_of_lt_of_le hpos (single_le_sum (f := D.wt) (s := (D.facesOf (D.G.face k).left).filter fun k => k < D.G.m.nbface)
        (fun j hj => hw j (mem_range.1 (mem_filter.1 (mem_filter.1 hj).1).1)) ?_)
      exact mem_filter.2 ⟨mem_filter.2 ⟨mem_range.2 hk, Or.inl rfl⟩, hb⟩
    have := (mul_eq_zero.1 this).resolve_left hpb.ne'
    have := pow_eq_zero_iff (two_ne_zero) |>.1 this
    linarith
  · have := (sum_eq_zero_iff_of_nonneg p2).1 z2 k (mem_filter.2 ⟨mem_range.2 hk, hb⟩)
    have := (mul_eq_zero.1 this).resolve_left hpos.ne'
    have e : (u (D.G.face k).right v - u (D.G.face k).left v) ^ 2 = 0 := by linarith
    have := pow_eq_zero_iff (two_ne_zero) |>.1 e
    linarith

end implicit

end Diff
end FV
end FVENS
