import Verif.FV.Jacobian
import Verif.FV.ReconMesh
import Mathlib.Analysis.Calculus.MeanValue
import Mathlib.Analysis.Calculus.LineDeriv.Basic

/-!
# System matrix: pseudo-time term (C59), matrix-free product (C60), preallocation (C61)
-/

namespace FVENS
namespace Lin
open FV Msh

/-! ## C59 -/

section pseudo
variable {nv : ℕ}

/-- Values left in `dtm` by both variants, src/ode/aodesolver.cpp:316, 347. -/
noncomputable def pseudoDt (area dt : ℕ → ℝ) (cfl : ℝ) (iel : ℕ) : ℝ := area iel / (cfl * dt iel)

/-- Update of one iteration of `addPseudoTimeTerm`, src/ode/aodesolver.cpp:314-326, in a critical section. `glob` is `gglobalElemIndex`. -/
noncomputable def pseudoUpds (glob : ℕ → ℕ) (d : ℕ → ℝ) (iel : ℕ) : List (Upd (ℕ × ℕ) (Blk (Fin nv))) :=
  [⟨(glob iel, glob iel), fun i j => d iel * (if i = j then 1 else 0), true⟩]

/-- Updates of one iteration of `addPseudoTimeTerm_slow`, src/ode/aodesolver.cpp:345-358: scalar entries. -/
noncomputable def pseudoUpdsSlow (nv : ℕ) (glob : ℕ → ℕ) (d : ℕ → ℝ) (iel : ℕ) : List (Upd (ℕ × ℕ) ℝ) :=
  (List.finRange nv).map fun (i : Fin nv) => ⟨(glob iel * nv + (i : ℕ), glob iel * nv + (i : ℕ)), d iel, true⟩

/-- C59: whatever the number of threads and the schedule, the loop adds area/(CFL dt) to the diagonal of the diagonal block of each cell, and
changes nothing else. -/
theorem C59_diagonal {glob : ℕ → ℕ} {nelem n : ℕ} (hinj : ∀ i j, i < nelem → j < nelem → glob i = glob j → i = j) (area dt : ℕ → ℝ) (cfl : ℝ)
    {A0 A : ℕ × ℕ → Blk (Fin nv)} (h : ParLoop n A0 (List.range nelem) (pseudoUpds glob (pseudoDt area dt cfl)) A) :
    (∀ iel, iel < nelem → ∀ i j, A (glob iel, glob iel) i j = A0 (glob iel, glob iel) i j + if i = j then area iel / (cfl * dt iel) else 0) ∧
    ∀ a b, (∀ iel, iel < nelem → ¬ (a = glob iel ∧ b = glob iel)) → A (a, b) = A0 (a, b) := by
  have hdet := parLoop_det h fun k _ x hx hxa => by
    simp only [pseudoUpds, List.mem_singleton] at hx
    rw [hx] at hxa; cases hxa
  have hamt : ∀ (a b : ℕ) (k : ℕ), amtAt (a, b) (pseudoUpds (nv := nv) glob (pseudoDt area dt cfl) k) =
      if glob k = a ∧ glob k = b then (fun i j => pseudoDt area dt cfl k * (if i = j then 1 else 0) : Blk (Fin nv)) else 0 := fun a b k => by
    simp [amtAt, pseudoUpds]
  constructor
  · intro iel hi i j
    rw [hdet]
    have : ((List.range nelem).map fun k => amtAt (glob iel, glob iel) (pseudoUpds (nv := nv) glob (pseudoDt area dt cfl) k)).sum =
        fun i j => pseudoDt area dt cfl iel * (if i = j then 1 else 0) := by
      rw [← List.sum_toFinset _ List.nodup_range, List.toFinset_range, Finset.sum_eq_single iel]
      · rw [hamt]; simp
      · intro k hk hne
        rw [hamt, if_neg]
        exact fun hc => hne (hinj k iel (Finset.mem_range.1 hk) hi hc.1)
      · intro hc; exact absurd (Finset.mem_range.2 hi) hc
    rw [this]
    simp [pseudoDt]
  · intro a b hab
    rw [hdet]
    have : ((List.range nelem).map fun k => amtAt (a, b) (pseudoUpds (nv := nv) glob (pseudoDt area dt cfl) k)).sum = 0 := by
      apply List.sum_eq_zero
      simp only [List.mem_map, List.mem_range]
      rintro _ ⟨k, hk, rfl⟩
      rw [hamt, if_neg]
      rintro ⟨rfl, rfl⟩
      exact hab k hk ⟨rfl, rfl⟩
    rw [this, add_zero]

/-- C59: the scalar variant changes the same entries by the same amounts. -/
theorem C59_variants_agree {glob : ℕ → ℕ} {nelem n n' : ℕ} (d : ℕ → ℝ) {A0 A : ℕ × ℕ → Blk (Fin nv)} {B0 B : ℕ × ℕ → ℝ}
    (h0 : ∀ a b (i j : Fin nv), B0 (a * nv + i, b * nv + j) = A0 (a, b) i j) (hA : ParLoop n A0 (List.range nelem) (pseudoUpds glob d) A)
    (hB : ParLoop n' B0 (List.range nelem) (pseudoUpdsSlow nv glob d) B) (a b : ℕ) (i j : Fin nv) : B (a * nv + i, b * nv + j) = A (a, b) i j := by
  rw [parLoop_det hA fun k _ x hx hxa => ?_, parLoop_det hB fun k _ x hx hxa => ?_]
  · simp only [Pi.add_apply, h0]
    congr 1
    have hnv : 0 < nv := i.pos
    have key : ∀ (x y : ℕ) (p q : Fin nv), x * nv + p = y * nv + q ↔ x = y ∧ p = q := fun x y p q => by
      constructor
      · intro h
        have h1 : (x * nv + p) / nv = x := by rw [Nat.mul_comm, Nat.mul_add_div hnv, Nat.div_eq_of_lt p.2, add_zero]
        have h2 : (y * nv + q) / nv = y := by rw [Nat.mul_comm, Nat.mul_add_div hnv, Nat.div_eq_of_lt q.2, add_zero]
        have : x = y := by rw [← h1, ← h2, h]
        subst this
        exact ⟨rfl, Fin.ext (by omega)⟩
      · rintro ⟨rfl, rfl⟩; rfl
    rw [← List.sum_toFinset _ List.nodup_range, ← List.sum_toFinset _ List.nodup_range, Finset.sum_apply, Finset.sum_apply]
    refine Finset.sum_congr rfl fun k _ => ?_
    simp only [amtAt, pseudoUpdsSlow, pseudoUpds, List.map_map, Function.comp_def, List.map_cons, List.map_nil, List.sum_cons, List.sum_nil, add_zero,
      Prod.mk.injEq, key]
    rw [← Fin.sum_univ_def]
    by_cases hab : glob k = a ∧ glob k = b
    · rw [if_pos hab]
      by_cases hij : i = j
      · subst hij
        rw [Finset.sum_eq_single i]
        · rw [if_pos ⟨⟨hab.1, rfl⟩, hab.2, rfl⟩]; simp
        · intro x _ hne; simp [hne]
        · simp
      · rw [Finset.sum_eq_zero]
        · simp [hij]
        · intro x _
          rw [if_neg]
          rintro ⟨⟨_, rfl⟩, _, rfl⟩
          exact hij rfl
    · rw [if_neg hab, Finset.sum_eq_zero]
      · rfl
      · intro x _
        rw [if_neg]
        rintro ⟨⟨h1, _⟩, h2, _⟩
        exact hab ⟨h1, h2⟩
  · simp only [pseudoUpdsSlow, List.mem_map] at hx
    obtain ⟨_, _, rfl⟩ := hx
    cases hxa
  · simp only [pseudoUpds, List.mem_singleton] at hx
    rw [hx] at hxa; cases hxa

/-- Concrete case: three cells with global numbers 7, 5, 6 on two threads. -/
example : ∃ A : ℕ × ℕ → Blk (Fin 4), ParLoop 2 (fun _ _ _ => 1) (List.range 3) (pseudoUpds (fun i => if i = 0 then 7 else i + 4) (pseudoDt (fun i => i + 1) (fun _ => 2) 5)) A ∧
    A (5, 5) 2 2 = 1 + 1 / 5 ∧ A (5, 5) 2 1 = 1 ∧ A (5, 6) 2 2 = 1 := by
  obtain ⟨A, hA, _⟩ := parLoop_exists (n := 2) (by norm_num) (fun _ _ _ => (1 : ℝ)) (List.range 3)
    (pseudoUpds (nv := 4) (fun i => if i = 0 then 7 else i + 4) (pseudoDt (fun i => i + 1) (fun _ => 2) 5))
  have h := C59_diagonal (nelem := 3) (by intro i j hi hj h; split_ifs at h <;> omega) _ _ _ hA
  refine ⟨A, hA, ?_, ?_, ?_⟩
  · have := h.1 1 (by norm_num) 2 2
    norm_num at this; linarith
  · have := h.1 1 (by norm_num) 2 1
    rw [if_neg (show ¬ (2 : Fin 4) = 1 by decide), add_zero] at this
    exact this
  · have := h.2 5 6 (fun iel _ hc => by omega)
    rw [this]

end pseudo

/-! ## C60 -/

section matfree
variable {ι : Type} [Fintype ι]

/-- `MatrixFreeSpatialJacobian::apply`, src/linalg/alinalg.cpp:142-233, on vectors indexed by cell and variable. `R` is what `compute_residual` yields
(the negative of the spatial residual), `res` the stored `R u`, `mdt` the pseudo-time factor of the cell of an index. `gh` is the sum of the ghost copies
of `yg` that the reverse scatter adds: the loop meant to clear them (:184-187) runs over the cells instead of the entries. `none` where the code divides by zero. -/
noncomputable def mfApply (R : (ι → ℝ) → ι → ℝ) (eps : ℝ) (u res gh mdt x : ι → ℝ) : Option (ι → ℝ) :=
  let xnorm := Real.sqrt (∑ i, x i ^ 2)
  let pertmag := eps / xnorm
  if xnorm = 0 ∨ pertmag = 0 then none
  else
    let yg := R (u + pertmag • x) + gh
    some fun i => mdt i * x i + (-yg i + res i) / pertmag

theorem xnorm_pos {x : ι → ℝ} (hx : x ≠ 0) : 0 < Real.sqrt (∑ i, x i ^ 2) := by
  apply Real.sqrt_pos.2
  obtain ⟨i, hi⟩ := Function.ne_iff.1 hx
  exact Finset.sum_pos' (fun j _ => sq_nonneg _) ⟨i, Finset.mem_univ i, by have : x i ≠ 0 := hi; positivity⟩

theorem mfApply_eq (R : (ι → ℝ) → ι → ℝ) {eps : ℝ} (he : eps ≠ 0) (u res gh mdt : ι → ℝ) {x : ι → ℝ} (hx : x ≠ 0) :
    mfApply R eps u res gh mdt x = some fun i => mdt i * x i + (-(R (u + (eps / Real.sqrt (∑ i, x i ^ 2)) • x) i + gh i) + res i) / (eps / Real.sqrt (∑ i, x i ^ 2)) := by
  have h := xnorm_pos hx
  unfold mfApply
  dsimp only
  rw [if_neg]
  · rfl
  · rintro (h' | h')
    · exact h.ne' h'
    · exact (div_ne_zero he h.ne') h'

/-- C60: exact for affine residuals and any step length: the pseudo-time diagonal times `x` plus the residual's linear part applied to `x`. -/
theorem C60_affine (A : (ι → ℝ) →ₗ[ℝ] ι → ℝ) (b : ι → ℝ) {eps : ℝ} (he : eps ≠ 0) (u mdt : ι → ℝ) {x : ι → ℝ} (hx : x ≠ 0) :
    mfApply (fun v => -(A v + b)) eps u (-(A u + b)) 0 mdt x = some fun i => mdt i * x i + A x i := by
  rw [mfApply_eq _ he _ _ _ _ hx]
  congr 1
  funext i
  have h := div_ne_zero he (xnorm_pos hx).ne'
  set p := eps / Real.sqrt (∑ i, x i ^ 2)
  simp only [map_add, map_smul, Pi.neg_apply, Pi.add_apply, Pi.smul_apply, smul_eq_mul, Pi.zero_apply]
  field_simp
  ring

/-- C60: with uncleared ghost copies the product is off by their sum over the step length: it is right exactly if they cancel. -/
theorem C60_ghost_iff (R : (ι → ℝ) → ι → ℝ) {eps : ℝ} (he : eps ≠ 0) (u res gh mdt : ι → ℝ) {x : ι → ℝ} (hx : x ≠ 0) :
    mfApply R eps u res gh mdt x = mfApply R eps u res 0 mdt x ↔ gh = 0 := by
  rw [mfApply_eq R he _ _ _ _ hx, mfApply_eq R he _ _ _ _ hx]
  have h := div_ne_zero he (xnorm_pos hx).ne'
  set p := eps / Real.sqrt (∑ i, x i ^ 2)
  constructor
  · intro e
    funext i
    have := congrFun (Option.some.inj e) i
    simp only [Pi.zero_apply, add_zero] at this
    field_simp at this
    simp only [Pi.zero_apply]
    linarith
  · rintro rfl; rfl

/-- C60: as the step length goes to zero the product tends to the pseudo-time diagonal plus the derivative of the residual `r`. -/
theorem C60_limit {r : (ι → ℝ) → ι → ℝ} {u : ι → ℝ} {r' : (ι → ℝ) →L[ℝ] ι → ℝ} (hr : HasFDerivAt r r' u) (mdt : ι → ℝ) {x : ι → ℝ} (hx : x ≠ 0) :
    ∃ y : ℝ → ι → ℝ, (∀ eps, eps ≠ 0 → mfApply (fun v => -r v) eps u (-r u) 0 mdt x = some (y eps)) ∧
      Filter.Tendsto y (nhdsWithin 0 {0}ᶜ) (nhds fun i => mdt i * x i + r' x i) := by
  have h0 := xnorm_pos hx
  set N := Real.sqrt (∑ i, x i ^ 2) with hN
  refine ⟨fun eps i => mdt i * x i + ((eps / N)⁻¹ • (r (u + (eps / N) • x) - r u)) i, fun eps he => ?_, ?_⟩
  · rw [mfApply_eq _ he _ _ _ _ hx]
    congr 1
    funext i
    simp only [Pi.neg_apply, Pi.zero_apply, Pi.smul_apply, Pi.sub_apply, smul_eq_mul, ← hN]
    ring
  · have h1 := (hr.hasLineDerivAt x).tendsto_slope_zero
    have h2 : Filter.Tendsto (fun eps : ℝ => eps / N) (nhdsWithin 0 {0}ᶜ) (nhdsWithin 0 {0}ᶜ) := by
      apply tendsto_nhdsWithin_iff.2
      constructor
      · have : Filter.Tendsto (fun eps : ℝ => eps / N) (nhds 0) (nhds (0 / N)) := Filter.Tendsto.div_const Filter.tendsto_id N
        rw [zero_div] at this
        exact this.mono_left nhdsWithin_le_nhds
      · filter_upwards [self_mem_nhdsWithin] with e he
        exact div_ne_zero he h0.ne'
    have h3 := h1.comp h2
    have h4 : Filter.Tendsto (fun (_ : ℝ) => fun i => mdt i * x i) (nhdsWithin (0 : ℝ) {0}ᶜ) (nhds fun i => mdt i * x i) := tendsto_const_nhds
    exact h4.add h3

/-- C60: error bound for any step length, from the variation of the derivative along the perturbation (a bound `K` on the curvature): at most `K |eps| ‖x‖`
in the maximum norm. -/
theorem C60_error {r : (ι → ℝ) → ι → ℝ} {r' : (ι → ℝ) → (ι → ℝ) →L[ℝ] ι → ℝ} (hr : ∀ v, HasFDerivAt r (r' v) v) {K : ℝ} (hK : 0 ≤ K) (u : ι → ℝ)
    (hlip : ∀ v, ‖r' v - r' u‖ ≤ K * ‖v - u‖) (mdt : ι → ℝ) {eps : ℝ} (he : eps ≠ 0) {x : ι → ℝ} (hx : x ≠ 0) :
    ∃ y, mfApply (fun v => -r v) eps u (-r u) 0 mdt x = some y ∧ ‖y - fun i => mdt i * x i + r' u x i‖ ≤ K * |eps| * ‖x‖ := by
  refine ⟨_, mfApply_eq _ he _ _ _ _ hx, ?_⟩
  have h0 := xnorm_pos hx
  set N := Real.sqrt (∑ i, x i ^ 2) with hN
  set p := eps / N with hp
  have hp0 : p ≠ 0 := div_ne_zero he h0.ne'
  have hle : ‖x‖ ≤ N := by
    rw [pi_norm_le_iff_of_nonneg h0.le]
    intro i
    rw [Real.norm_eq_abs, ← Real.sqrt_sq_eq_abs]
    exact Real.sqrt_le_sqrt (Finset.single_le_sum (f := fun i => x i ^ 2) (fun j _ => sq_nonneg _) (Finset.mem_univ i))
  have e : ((fun i => mdt i * x i + (-((fun v => -r v) (u + p • x) i + (0 : ι → ℝ) i) + (-r u) i) / p) - fun i => mdt i * x i + r' u x i) =
      p⁻¹ • (r (u + p • x) - r u - r' u (u + p • x - u)) := by
    funext i
    simp only [Pi.sub_apply, Pi.neg_apply, Pi.zero_apply, Pi.smul_apply, smul_eq_mul, add_sub_cancel_left, map_smul]
    field_simp
    ring
  rw [e, norm_smul]
  have hb := (convex_segment (𝕜 := ℝ) u (u + p • x)).norm_image_sub_le_of_norm_hasFDerivWithin_le' (f := r) (f' := r') (φ := r' u) (C := K * (|p| * ‖x‖))
    (fun v _ => (hr v).hasFDerivWithinAt) (fun v hv => by
      refine (hlip v).trans (mul_le_mul_of_nonneg_left ?_ hK)
      rw [segment_eq_image'] at hv
      obtain ⟨t, ht, rfl⟩ := hv
      simp only [add_sub_cancel_left, norm_smul, Real.norm_eq_abs]
      rw [abs_of_nonneg ht.1]
      have : 0 ≤ |p| * ‖x‖ := by positivity
      nlinarith [ht.2]) (left_mem_segment ℝ _ _) (right_mem_segment ℝ _ _)
  rw [add_sub_cancel_left, norm_smul] at hb
  rw [add_sub_cancel_left]
  rw [Real.norm_eq_abs] at hb
  rw [norm_inv, Real.norm_eq_abs]
  have hpp : 0 < |p| := abs_pos.2 hp0
  calc |p|⁻¹ * ‖r (u + p • x) - r u - (r' u) (p • x)‖ ≤ |p|⁻¹ * (K * (|p| * ‖x‖) * (|p| * ‖x‖)) := mul_le_mul_of_nonneg_left hb (by positivity)
    _ = K * (|p| * ‖x‖) * ‖x‖ := by field_simp
    _ ≤ K * |eps| * ‖x‖ := by
        apply mul_le_mul_of_nonneg_right _ (norm_nonneg _)
        rw [hp, abs_div, abs_of_pos h0]
        apply mul_le_mul_of_nonneg_left _ hK
        rw [div_mul_eq_mul_div, div_le_iff₀ h0]
        exact mul_le_mul_of_nonneg_left hle (abs_nonneg _)

/-- C60: the zero direction is not handled (unless compiled for debugging): the code divides by its norm. -/
theorem C60_zero_direction (R : (ι → ℝ) → ι → ℝ) (eps : ℝ) (u res gh mdt : ι → ℝ) : mfApply R eps u res gh mdt 0 = none := by
  simp [mfApply]

/-- Concrete case: direction (3,4), step 1/10, a linear residual. -/
example : mfApply (fun v : Fin 2 → ℝ => -((2 : ℝ) • v + 1)) (1/10) ![1, 2] (-((2 : ℝ) • ![1, 2] + 1)) 0 ![5, 5] ![3, 4] = some ![21, 28] := by
  have := C60_affine (ι := Fin 2) ((2 : ℝ) • LinearMap.id) 1 (eps := 1/10) (by norm_num) ![1, 2] ![5, 5] (x := ![3, 4]) (by
    intro h; have := congrFun h 0; norm_num at this)
  simp only [LinearMap.smul_apply, LinearMap.id_apply] at this
  rw [this]
  congr 1
  ext i
  fin_cases i <;> norm_num

/-- Hypotheses of `C60_limit` and `C60_error` are met by the residual `v²`, with curvature bound 2. -/
example : ∃ y, mfApply (fun v : Fin 1 → ℝ => -fun i => v i ^ 2) (1/10) 3 (-fun _ => 9) 0 0 1 = some y ∧ ‖y - fun _ => 6‖ ≤ 1 / 5 := by
  have hr : ∀ v : Fin 1 → ℝ, HasFDerivAt (fun (v : Fin 1 → ℝ) i => v i ^ 2) ((2 * v 0) • ContinuousLinearMap.id ℝ (Fin 1 → ℝ)) v := fun v => by
    refine hasFDerivAt_pi'.2 fun i => ?_
    obtain rfl : i = 0 := Subsingleton.elim _ _
    have := ((ContinuousLinearMap.proj (R := ℝ) (φ := fun _ : Fin 1 => ℝ) 0).hasFDerivAt (x := v)).pow 2
    refine this.congr_fderiv ?_
    ext x
    simp
  obtain ⟨y, h1, h2⟩ := C60_error hr (K := 2) (by norm_num) 3 (fun v => by
    rw [show (2 * v 0) • ContinuousLinearMap.id ℝ (Fin 1 → ℝ) - (2 * (3 : Fin 1 → ℝ) 0) • ContinuousLinearMap.id ℝ (Fin 1 → ℝ) =
      (2 * v 0 - 2 * (3 : Fin 1 → ℝ) 0) • ContinuousLinearMap.id ℝ (Fin 1 → ℝ) by ext x; simp; ring, norm_smul]
    have h0 : |v 0 - 3| ≤ ‖v - 3‖ := norm_le_pi_norm (v - 3) 0
    have h1 : ‖ContinuousLinearMap.id ℝ (Fin 1 → ℝ)‖ ≤ 1 := ContinuousLinearMap.norm_id_le
    have h2 : ‖2 * v 0 - 2 * (3 : Fin 1 → ℝ) 0‖ = 2 * |v 0 - 3| := by
      rw [show 2 * v 0 - 2 * (3 : Fin 1 → ℝ) 0 = 2 * (v 0 - 3) by simp; ring, norm_mul]; simp
    rw [h2]
    nlinarith [abs_nonneg (v 0 - 3), norm_nonneg (ContinuousLinearMap.id ℝ (Fin 1 → ℝ))]) 0 (eps := 1/10) (by norm_num) (x := 1) (by simp)
  refine ⟨y, ?_, ?_⟩
  · rw [← h1]; norm_num
  · convert h2 using 1
    · congr 2; funext i; simp; norm_num
    · norm_num [abs_of_pos]
end matfree

/-! ## C61 -/

section prealloc
open Finset

variable (G : Geo) (gcol : ℕ → Option ℕ)

/-- `dnnz` of block row `iel`, src/linalg/alinalg.cpp:49-53. -/
def dnnz (m : Mesh) (iel : ℕ) : ℕ := m.nfael iel + 1

/-- `onnz`, src/linalg/alinalg.cpp:55-57. -/
def onnz (m : Mesh) : ℕ → ℕ := forLt m.nconnface (fun _ => 0) fun iface o => upd o (m.connface iface 0) 1

/-- Global block columns at which assembly inserts a block into the row of cell `i`: those of `assemble_jacobian`, and of the pseudo-time term. -/
noncomputable def insertedCols (i : ℕ) : Finset ℕ :=
  ((range G.nface).biUnion fun k => (((jacUpds G gcol (fun _ (_ _ : Fin 1) => 0) (fun _ _ _ => 0) (fun _ _ _ => 0) k).map Upd.loc).toFinset.filter fun x => gcol i = some x.1).image Prod.snd) ∪
    (gcol i).toFinset

/-- Columns that belong to the process: those of its own cells. -/
noncomputable def ownCols (i : ℕ) : Finset ℕ := (insertedCols G gcol i).filter fun c => ∃ j < G.m.nelem, gcol j = some c

/-- Columns of other processes. -/
noncomputable def otherCols (i : ℕ) : Finset ℕ := (insertedCols G gcol i).filter fun c => ¬ ∃ j < G.m.nelem, gcol j = some c

variable {G gcol}

theorem mem_ent {ι : Type} {gcol : ℕ → Option ℕ} {r c a b : ℕ} {B : Blk ι} : (a, b) ∈ (ent gcol r c B).map Upd.loc ↔ gcol r = some a ∧ gcol c = some b := by
  unfold ent
  rcases gcol r with _ | x <;> rcases gcol c with _ | y <;> simp [eq_comm]

/-- Columns inserted in the row of a cell: its own, those of the cells across interior faces and across interface faces. -/
theorem mem_insertedCols (h : G.Ok) (hN : IsNumbering G gcol) {i : ℕ} (hi : i < G.m.nelem) (c : ℕ) : c ∈ insertedCols G gcol i ↔
    gcol i = some c ∨ (∃ k < G.nface, G.inner k ∧ ∃ j, gcol j = some c ∧ (((G.face k).left = i ∧ (G.face k).right = j) ∨ ((G.face k).right = i ∧ (G.face k).left = j))) ∨
      ∃ k < G.nface, G.m.nbface ≤ k ∧ ¬ G.inner k ∧ (G.face k).left = i ∧ gcol (G.face k).right = some c := by
  unfold insertedCols
  simp only [mem_union, mem_biUnion, mem_range, mem_image, mem_filter, List.mem_toFinset, Prod.exists, exists_eq_right, Option.mem_toFinset, Option.mem_def]
  have hcell : ∀ j a, j < G.m.nelem → gcol i = some a → gcol j = some a → j = i := fun j a hj h1 h2 => hN.inj j i hj hi (h2.trans h1.symm)
  constructor
  · rintro (⟨k, hk, a, hmem, ha⟩ | hc)
    · obtain ⟨k1, k2, k3, k4, k5⟩ := h.kind hk
      unfold jacUpds at hmem
      dsimp only at hmem
      split_ifs at hmem with hb hin
      · obtain ⟨e1, e2⟩ := mem_ent.1 hmem
        left
        rw [e1] at e2; cases e2; exact ha
      · simp only [List.map_append, List.mem_append, mem_ent] at hmem
        have hr := k4.1 hin
        rcases hmem with ((⟨e1, e2⟩ | ⟨e1, e2⟩) | ⟨e1, e2⟩) | ⟨e1, e2⟩
        · exact .inr (.inl ⟨k, hk, hin, _, e2, .inr ⟨hcell _ a hr ha e1, rfl⟩⟩)
        · exact .inr (.inl ⟨k, hk, hin, _, e2, .inl ⟨hcell _ a k1 ha e1, rfl⟩⟩)
        · rw [e1] at e2; cases e2; exact .inl ha
        · rw [e1] at e2; cases e2; exact .inl ha
      · simp only [List.map_append, List.mem_append, mem_ent] at hmem
        rcases hmem with ⟨e1, e2⟩ | ⟨e1, e2⟩
        · exact .inr (.inr ⟨k, hk, by omega, hin, hcell _ a k1 ha e1, e2⟩)
        · rw [e1] at e2; cases e2; exact .inl ha
    · exact .inl hc
  · rintro (hc | ⟨k, hk, hin, j, hj, hs⟩ | ⟨k, hk, hb, hin, hl, hc⟩)
    · exact .inr hc
    · left
      obtain ⟨a, ha⟩ := Option.isSome_iff_exists.1 (hN.cell i hi)
      refine ⟨k, hk, a, ?_, ha⟩
      unfold jacUpds
      dsimp only
      rw [if_neg (not_lt.2 hin.1), if_pos hin]
      simp only [List.map_append, List.mem_append, mem_ent]
      rcases hs with ⟨rfl, rfl⟩ | ⟨rfl, rfl⟩
      · exact .inl (.inl (.inr ⟨ha, hj⟩))
      · exact .inl (.inl (.inl ⟨ha, hj⟩))
    · left
      obtain ⟨a, ha⟩ := Option.isSome_iff_exists.1 (hN.cell i hi)
      refine ⟨k, hk, a, ?_, ha⟩
      unfold jacUpds
      dsimp only
      rw [if_neg (not_lt.2 hb), if_neg hin]
      simp only [List.map_append, List.mem_append, mem_ent]
      left; rw [hl]; exact ⟨ha, hc⟩

/-- Cells across interior faces are the neighbours found by the connectivity search. -/
theorem inner_neighbour (h : G.Ok) {k : ℕ} (hk : k < G.nface) (hin : G.inner k) :
    (∃ f < G.m.nnode (G.face k).left, esuel G.m (esup G.m) (G.face k).left f = some (G.face k).right) ∧
    ∃ f < G.m.nnode (G.face k).right, esuel G.m (esup G.m) (G.face k).right f = some (G.face k).left := by
  have hmem : G.face k ∈ (G.s.faces.drop G.m.nbface).take (ninface G.m (esuel G.m (esup G.m))) := by
    rw [List.mem_iff_getElem?]
    refine ⟨k - G.m.nbface, ?_⟩
    have h1 := hin.1; have h2 := hin.2
    rw [List.getElem?_take_of_lt (by unfold Geo.ni at h2; omega), List.getElem?_drop, Nat.add_sub_cancel' hin.1]
    exact faceAt_get hk
  obtain ⟨f, g, j, i, hg, _, hF⟩ := (C27_interior h.conf.lin h.conf.manifold h.conf.bfOk h.topo _).1 hmem
  have e1 : (G.face k).left = i := by rw [hF]
  have e2 : (G.face k).right = j := by rw [hF]
  rw [e1, e2]
  exact ⟨⟨f, hg.1.2, (C26_adjacency_exact h.conf.lin h.conf.manifold i f j).2 ⟨g, hg⟩⟩,
    ⟨g, hg.2.1.2, (C26_adjacency_exact h.conf.lin h.conf.manifold j g i).2 ⟨f, hg.symm⟩⟩⟩

/-- C61: the diagonal part is preallocated sufficiently, serial or distributed. -/
theorem C61_diagonal (h : G.Ok) (dist : Bool) (glob : ℕ → ℕ)
    (hd : dist = true → (∀ i j, i < G.m.nelem → j < G.m.nelem → glob i = glob j → i = j) ∧
      ∀ i c, i < G.m.nelem → c < G.m.nconnface → glob i ≠ G.m.connface c 3) {i : ℕ} (hi : i < G.m.nelem) :
    (ownCols G (numbering G.m dist glob) i).card ≤ dnnz G.m i := by
  have hN := numbering_isNumbering h dist glob hd
  set gcol := numbering G.m dist glob with hgcol
  have hsub : ownCols G gcol i ⊆ (gcol i).toFinset ∪ (range (G.m.nnode i)).biUnion fun f => ((esuel G.m (esup G.m) i f).bind gcol).toFinset := by
    intro c hc
    unfold ownCols at hc
    rw [mem_filter, mem_insertedCols h hN hi] at hc
    obtain ⟨hc, j0, hj0, hjc⟩ := hc
    simp only [mem_union, Option.mem_toFinset, Option.mem_def, mem_biUnion, mem_range]
    rcases hc with hc | ⟨k, hk, hin, j, hj, hs⟩ | ⟨k, hk, hb, hin, hl, hc⟩
    · exact .inl hc
    · right
      obtain ⟨⟨f, hf, e⟩, ⟨g, hg, e'⟩⟩ := inner_neighbour h hk hin
      rcases hs with ⟨rfl, rfl⟩ | ⟨rfl, rfl⟩
      · exact ⟨f, hf, by rw [e]; exact hj⟩
      · exact ⟨g, hg, by rw [e']; exact hj⟩
    · exfalso
      obtain ⟨k1, k2, k3, k4, k5⟩ := h.kind hk
      have hr : ¬ (G.face k).right < G.m.nelem := fun h' => hin (k4.2 h')
      have h5 := k5 hb
      simp only [hgcol, numbering, hr, if_false, hj0, if_true] at hc hjc
      cases dist
      · simp at hc
      · simp only [if_true, Option.some.injEq] at hc hjc
        exact (hd rfl).2 j0 ((G.face k).right - G.m.nelem) hj0 (by omega) (hjc.trans hc.symm)
  have hcard : ∀ o : Option ℕ, o.toFinset.card ≤ 1 := fun o => by cases o <;> simp
  calc (ownCols G gcol i).card ≤ _ := card_le_card hsub
    _ ≤ (gcol i).toFinset.card + ((range (G.m.nnode i)).biUnion fun f => ((esuel G.m (esup G.m) i f).bind gcol).toFinset).card := card_union_le _ _
    _ ≤ 1 + G.m.nnode i := by
        refine Nat.add_le_add (hcard _) ?_
        refine card_biUnion_le.trans ?_
        refine (sum_le_sum fun f _ => hcard _).trans ?_
        simp
    _ = dnnz G.m i := by unfold dnnz; rw [h.conf.lin.nf i hi]; omega

theorem onnz_eq (m : Mesh) (i : ℕ) : onnz m i = if ∃ c < m.nconnface, m.connface c 0 = i then 1 else 0 := by
  unfold onnz
  refine (forLt_inv (I := fun n (o : ℕ → ℕ) => o i = if ∃ c < n, m.connface c 0 = i then 1 else 0) ?_ ?_)
  · simp
  · intro n o _ ih
    by_cases hc : m.connface n 0 = i
    · rw [hc, upd_same, if_pos ⟨n, by omega, hc⟩]
    · rw [upd_ne _ _ (Ne.symm hc), ih]
      congr 1
      refine propext ⟨fun ⟨c, h1, h2⟩ => ⟨c, by omega, h2⟩, fun ⟨c, h1, h2⟩ => ?_⟩
      refine ⟨c, ?_, h2⟩
      rcases Nat.lt_succ_iff_lt_or_eq.1 h1 with h | h
      · exact h
      · subst h; exact absurd h2 hc

/-- Columns of other processes in the row of cell `i`: the cells across its interface faces. -/
theorem otherCols_eq (h : G.Ok) (glob : ℕ → ℕ)
    (hd : (∀ i j, i < G.m.nelem → j < G.m.nelem → glob i = glob j → i = j) ∧ ∀ i c, i < G.m.nelem → c < G.m.nconnface → glob i ≠ G.m.connface c 3)
    {i : ℕ} (hi : i < G.m.nelem) :
    otherCols G (numbering G.m true glob) i = ((range G.m.nconnface).filter fun c => G.m.connface c 0 = i).image fun c => G.m.connface c 3 := by
  have hN := numbering_isNumbering h true glob (fun _ => hd)
  obtain ⟨g1, g2, g3⟩ := C27_ranges h.conf.lin h.conf.bfOk h.topo
  have hface : ∀ ic, ic < G.m.nconnface → (G.face (G.m.nbface + G.ni + ic)).left = G.m.connface ic 0 ∧ (G.face (G.m.nbface + G.ni + ic)).right = G.m.nelem + ic := by
    intro ic hic
    have e := g3 ic hic
    have e' : G.s.faces[G.m.nbface + G.ni + ic]? = some (G.face (G.m.nbface + G.ni + ic)) := faceAt_get (by
      have := h.nface_eq; unfold Geo.nface at this; omega)
    unfold Geo.ni at e' ⊢
    rw [e] at e'
    rw [← Option.some.inj e']
    exact ⟨rfl, rfl⟩
  ext c
  unfold otherCols
  rw [mem_filter, mem_insertedCols h hN hi]
  simp only [mem_image, mem_filter, mem_range]
  constructor
  · rintro ⟨hc | ⟨k, hk, hin, j, hj, hs⟩ | ⟨k, hk, hb, hin, hl, hc⟩, hno⟩
    · exact absurd ⟨i, hi, hc⟩ hno
    · exfalso
      obtain ⟨k1, k2, k3, k4, k5⟩ := h.kind hk
      rcases hs with ⟨rfl, rfl⟩ | ⟨rfl, rfl⟩
      · exact hno ⟨_, k4.1 hin, hj⟩
      · exact hno ⟨_, k1, hj⟩
    · have hlt : k - (G.m.nbface + G.ni) < G.m.nconnface := by
        have := h.nface_eq
        unfold Geo.inner at hin
        omega
      have hk' : k = G.m.nbface + G.ni + (k - (G.m.nbface + G.ni)) := by unfold Geo.inner at hin; omega
      obtain ⟨f1, f2⟩ := hface _ hlt
      rw [← hk'] at f1 f2
      refine ⟨_, ⟨hlt, f1 ▸ hl⟩, ?_⟩
      rw [f2] at hc
      simpa [numbering] using hc
  · rintro ⟨ic, ⟨hic, h0⟩, rfl⟩
    obtain ⟨f1, f2⟩ := hface _ hic
    refine ⟨.inr (.inr ⟨G.m.nbface + G.ni + ic, by rw [h.nface_eq]; omega, by omega, by unfold Geo.inner; omega, f1.trans h0, ?_⟩), ?_⟩
    · rw [f2]; simp [numbering]
    · rintro ⟨j, hj, e⟩
      simp only [numbering, hj, if_true, Option.some.injEq] at e
      exact hd.2 j ic hj hic e

/-- C61: the part belonging to other processes is preallocated sufficiently exactly if the cell has no two different cells across interfaces. -/
theorem C61_offdiagonal_iff (h : G.Ok) (glob : ℕ → ℕ)
    (hd : (∀ i j, i < G.m.nelem → j < G.m.nelem → glob i = glob j → i = j) ∧ ∀ i c, i < G.m.nelem → c < G.m.nconnface → glob i ≠ G.m.connface c 3)
    {i : ℕ} (hi : i < G.m.nelem) :
    (otherCols G (numbering G.m true glob) i).card ≤ onnz G.m i ↔
      ∀ c c', c < G.m.nconnface → c' < G.m.nconnface → G.m.connface c 0 = i → G.m.connface c' 0 = i → G.m.connface c 3 = G.m.connface c' 3 := by
  rw [otherCols_eq h glob hd hi, onnz_eq]
  constructor
  · intro hle c c' hc hc' e e'
    rw [if_pos ⟨c, hc, e⟩, card_le_one] at hle
    exact hle _ (mem_image.2 ⟨c, by simp [hc, e], rfl⟩) _ (mem_image.2 ⟨c', by simp [hc', e'], rfl⟩)
  · intro hall
    split_ifs with hex
    · rw [card_le_one]
      simp only [mem_image, mem_filter, mem_range]
      rintro _ ⟨c, ⟨h1, h2⟩, rfl⟩ _ ⟨c', ⟨h3, h4⟩, rfl⟩
      exact hall c c' h1 h3 h2 h4
    · push Not at hex
      rw [Nat.le_zero, card_eq_zero, image_eq_empty, filter_eq_empty_iff]
      intro c hc
      exact hex c (mem_range.1 hc)

/-- C61 (partial): sufficient preallocation of the whole row for cells with at most one interface face. Missing for the full claim: cells with several,
see `C61_refuted`. -/
theorem C61_row_partial (h : G.Ok) (glob : ℕ → ℕ)
    (hd : (∀ i j, i < G.m.nelem → j < G.m.nelem → glob i = glob j → i = j) ∧ ∀ i c, i < G.m.nelem → c < G.m.nconnface → glob i ≠ G.m.connface c 3)
    {i : ℕ} (hi : i < G.m.nelem) (hone : ∀ c c', c < G.m.nconnface → c' < G.m.nconnface → G.m.connface c 0 = i → G.m.connface c' 0 = i → c = c') :
    (ownCols G (numbering G.m true glob) i).card ≤ dnnz G.m i ∧ (otherCols G (numbering G.m true glob) i).card ≤ onnz G.m i :=
  ⟨C61_diagonal h true glob (fun _ => hd) hi, (C61_offdiagonal_iff h glob hd hi).2 fun c c' h1 h2 h3 h4 => by rw [hone c c' h1 h2 h3 h4]⟩

/-- Concrete case: four triangles with one interface face each. -/
example {i : ℕ} (hi : i < 4) : (otherCols Geo.isleGeo (numbering Geo.isleGeo.m true id) i).card ≤ onnz Geo.isleGeo.m i := by
  refine (C61_row_partial Geo.isleGeo_ok id ⟨fun _ _ _ _ h => h, fun i c hi hc => ?_⟩ hi fun c c' _ _ h h' => ?_).2
  · have h1 : i < 4 := hi
    show i ≠ 20 + c
    omega
  · exact (show c = i from h).trans (show c' = i from h').symm

/-! ### A cell with several interface faces -/

/-- A single triangle, all of whose sides are interfaces to different cells of other processes. -/
noncomputable def lone : Mesh :=
  { Geo.cross with
    nelem := 1
    nbface := 0
    nconnface := 3
    connface := fun i j => if j = 0 then 0 else if j = 1 then i else if j = 2 then 1 else 20 + i }

theorem lone_topological : ∃ s, topological lone = .ok s := by
  have : bfaceHosts lone (esup lone) = .ok [] := by decide +kernel
  rw [topological, faceConnectivity, this]
  exact ⟨_, rfl⟩

noncomputable def loneGeo : Geo where
  m := lone
  s := lone_topological.choose
  rc := fun _ _ => 0
  rcbp := fun _ => 0
  ar := fun _ => 1 / 4

theorem loneGeo_ok : loneGeo.Ok := by
  refine ⟨(by decide +kernel : Check lone).conforming, ?_, lone_topological.choose_spec⟩
  rintro ⟨i, f⟩ ⟨hi, hf⟩
  have h1 : i < 1 := hi
  exact Geo.cross_nozero (i, f) ⟨show i < 4 by omega, hf⟩

/-- C61 fails: a cell with three interface faces needs three blocks of other processes, one is preallocated. -/
theorem C61_refuted : ∃ (G : Geo) (glob : ℕ → ℕ), G.Ok ∧ (∀ i j, i < G.m.nelem → j < G.m.nelem → glob i = glob j → i = j) ∧
    (∀ i c, i < G.m.nelem → c < G.m.nconnface → glob i ≠ G.m.connface c 3) ∧
    onnz G.m 0 = 1 ∧ (otherCols G (numbering G.m true glob) 0).card = 3 := by
  have hd : ∀ i c, i < loneGeo.m.nelem → c < loneGeo.m.nconnface → id i ≠ loneGeo.m.connface c 3 := fun i c hi _ => by
    have h1 : i < 1 := hi
    show i ≠ 20 + c
    omega
  refine ⟨loneGeo, id, loneGeo_ok, fun _ _ _ _ h => h, hd, ?_, ?_⟩
  · rw [onnz_eq, if_pos]
    exact ⟨0, show 0 < 3 by norm_num, rfl⟩
  · rw [otherCols_eq loneGeo_ok id ⟨fun _ _ _ _ h => h, hd⟩ (show 0 < 1 by norm_num)]
    show (((range 3).filter fun c => lone.connface c 0 = 0).image fun c => lone.connface c 3).card = 3
    decide +kernel

end prealloc
end Lin
end FVENS
