import Mathlib.Analysis.Calculus.FDeriv.Pi
import Mathlib.Analysis.Calculus.FDeriv.Mul
import Mathlib.Analysis.Calculus.Deriv.Inv
import Mathlib.Analysis.Calculus.Deriv.Comp
import Mathlib.Analysis.Calculus.Deriv.Pi
import Mathlib.Analysis.SpecialFunctions.Sqrt
import Mathlib.Analysis.SpecialFunctions.Pow.Deriv
import Mathlib.Tactic.FieldSimp
import Mathlib.Tactic.Ring
import Mathlib.Tactic.Linarith
import Mathlib.Tactic.FinCases
import Mathlib.Tactic.NormNum

/-!
# Gradients of real functions of a state vector

`HasGrad f g u` is Mathlib's Fréchet differentiability of `f` at `u` with the derivative
written as a row of partial derivatives `g`.  The Jacobian routines of the C++ code return
such rows, so this is the specification used for them.
-/

namespace FVENS

/-- A state array `u[0..3]` of `NVARS = 4` values (`src/utilities/aconstants.hpp`). -/
abbrev St := Fin 4 → ℝ

/-- The linear functional `du ↦ Σ_i g[i]*du[i]`. -/
noncomputable def row (g : St) : St →L[ℝ] ℝ :=
  ∑ i, g i • (ContinuousLinearMap.proj i : St →L[ℝ] ℝ)

/-- Specification of a derivative row: `f` is Fréchet differentiable at `u` with partial
derivatives `g`. -/
def HasGrad (f : St → ℝ) (g : St) (u : St) : Prop := HasFDerivAt f (row g) u

theorem row_apply (g du : St) : row g du = g 0 * du 0 + g 1 * du 1 + g 2 * du 2 + g 3 * du 3 := by
  simp [row, Fin.sum_univ_four]

theorem row_injective {g g' : St} (h : row g = row g') : g = g' := by
  funext i
  have h1 : row g (Pi.single i 1) = row g' (Pi.single i 1) := by rw [h]
  fin_cases i <;> simpa [row_apply] using h1

namespace HasGrad
variable {f h : St → ℝ} {f' h' : St} {u : St}

/-- Derivative rows are unique, so a theorem `HasGrad f g u` pins `g` down completely. -/
theorem unique (h1 : HasGrad f f' u) (h2 : HasGrad f h' u) : f' = h' :=
  row_injective (HasFDerivAt.unique h1 h2)

theorem congr (h1 : HasGrad f f' u) (e : f' = h') : HasGrad f h' u := e ▸ h1

theorem const (c : ℝ) : HasGrad (fun _ => c) 0 u := by
  have : row (0 : St) = 0 := by ext x; simp [row_apply]
  unfold HasGrad; rw [this]; exact hasFDerivAt_const c u

theorem coord (i : Fin 4) : HasGrad (fun v => v i) (Pi.single i 1) u := by
  have : row (Pi.single i 1) = (ContinuousLinearMap.proj i : St →L[ℝ] ℝ) := by
    apply ContinuousLinearMap.ext
    intro x; rw [row_apply]; fin_cases i <;> simp
  unfold HasGrad; rw [this]; exact (ContinuousLinearMap.proj i : St →L[ℝ] ℝ).hasFDerivAt

theorem add (h1 : HasGrad f f' u) (h2 : HasGrad h h' u) :
    HasGrad (fun v => f v + h v) (fun i => f' i + h' i) u := by
  have e : row (fun i => f' i + h' i) = row f' + row h' := by
    apply ContinuousLinearMap.ext; intro x
    simp only [row_apply, add_apply]; ring
  unfold HasGrad; rw [e]; exact HasFDerivAt.add h1 h2

theorem sub (h1 : HasGrad f f' u) (h2 : HasGrad h h' u) :
    HasGrad (fun v => f v - h v) (fun i => f' i - h' i) u := by
  have e : row (fun i => f' i - h' i) = row f' - row h' := by
    apply ContinuousLinearMap.ext; intro x
    simp only [row_apply, sub_apply]; ring
  unfold HasGrad; rw [e]; exact HasFDerivAt.sub h1 h2

theorem mul (h1 : HasGrad f f' u) (h2 : HasGrad h h' u) :
    HasGrad (fun v => f v * h v) (fun i => f' i * h u + f u * h' i) u := by
  have e : row (fun i => f' i * h u + f u * h' i) = f u • row h' + h u • row f' := by
    apply ContinuousLinearMap.ext; intro x
    simp only [row_apply, add_apply, smul_apply, smul_eq_mul]
    ring
  unfold HasGrad; rw [e]; exact HasFDerivAt.mul h1 h2

/-- Chain rule with a scalar outer function. -/
theorem comp {φ : ℝ → ℝ} {φ' : ℝ} (h1 : HasGrad f f' u) (hφ : HasDerivAt φ φ' (f u)) :
    HasGrad (fun v => φ (f v)) (fun i => φ' * f' i) u := by
  have e : row (fun i => φ' * f' i) = φ' • row f' := by
    apply ContinuousLinearMap.ext; intro x
    simp only [row_apply, smul_apply, smul_eq_mul]; ring
  unfold HasGrad; rw [e]; exact HasDerivAt.comp_hasFDerivAt u hφ h1

theorem neg (h1 : HasGrad f f' u) : HasGrad (fun v => - f v) (fun i => - f' i) u := by
  refine (h1.comp (φ := fun x => -x) (hasDerivAt_neg _)).congr ?_
  funext i; ring

theorem cmul (c : ℝ) (h1 : HasGrad f f' u) : HasGrad (fun v => c * f v) (fun i => c * f' i) u := by
  refine ((HasGrad.const c).mul h1).congr ?_
  funext i; simp

theorem inv (h1 : HasGrad f f' u) (h0 : f u ≠ 0) :
    HasGrad (fun v => (f v)⁻¹) (fun i => -(f' i) / (f u) ^ 2) u := by
  refine (h1.comp (φ := fun x => x⁻¹) (hasDerivAt_inv h0)).congr ?_
  funext i; field_simp

theorem div (h1 : HasGrad f f' u) (h2 : HasGrad h h' u) (h0 : h u ≠ 0) :
    HasGrad (fun v => f v / h v) (fun i => (f' i * h u - f u * h' i) / (h u) ^ 2) u := by
  have := h1.mul (h2.inv h0)
  have e : (fun v => f v / h v) = fun v => f v * (h v)⁻¹ := by
    funext v; exact div_eq_mul_inv _ _
  rw [e]; refine this.congr ?_
  funext i; field_simp; ring

theorem sqrt (h1 : HasGrad f f' u) (h0 : f u ≠ 0) :
    HasGrad (fun v => Real.sqrt (f v)) (fun i => f' i / (2 * Real.sqrt (f u))) u := by
  refine (h1.comp (Real.hasDerivAt_sqrt h0)).congr ?_
  funext i; ring

theorem rpow (a : ℝ) (h1 : HasGrad f f' u) (h0 : f u ≠ 0) :
    HasGrad (fun v => (f v) ^ a) (fun i => a * (f u) ^ (a - 1) * f' i) u := by
  exact h1.comp (φ := fun x => x ^ a) (Real.hasDerivAt_rpow_const (Or.inl h0))

theorem sq (h1 : HasGrad f f' u) : HasGrad (fun v => (f v) ^ 2) (fun i => 2 * f u * f' i) u := by
  have := h1.mul h1
  have e : (fun v => (f v) ^ 2) = fun v => f v * f v := by
    funext v; exact pow_two _
  rw [e]; refine this.congr ?_
  funext i; ring

/-- Locally equal functions have the same derivative row. -/
theorem congr_of_eventuallyEq (h1 : HasGrad f f' u) (e : h =ᶠ[nhds u] f) : HasGrad h f' u :=
  HasFDerivAt.congr_of_eventuallyEq h1 e

/-- The rows are partial derivatives in the elementary sense. -/
theorem partial_deriv (h1 : HasGrad f f' u) (i : Fin 4) :
    HasDerivAt (fun x => f (Function.update u i x)) (f' i) (u i) := by
  have h2 : HasDerivAt (fun x => Function.update u i x) (Pi.single i (1:ℝ)) (u i) :=
    by
      rw [hasDerivAt_pi]; intro j
      by_cases hj : j = i
      · subst hj; simpa using hasDerivAt_id' (u j)
      · simpa [hj, Function.update_of_ne hj] using hasDerivAt_const (u i) (u j)
  have h3 : HasFDerivAt f (row f') (Function.update u i (u i)) := by
    rw [Function.update_eq_self]; exact h1
  have h4 := h3.comp_hasDerivAt (u i) h2
  have h5 : row f' (Pi.single i (1:ℝ)) = f' i := by
    rw [row_apply]; fin_cases i <;> simp
  rw [h5] at h4; exact h4

end HasGrad
end FVENS
