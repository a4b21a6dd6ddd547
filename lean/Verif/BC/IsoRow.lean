import Verif.BC.Props

/-!
# The energy row of the isothermal wall's Jacobian (C10)
-/

namespace FVENS
namespace BC

/-- C10 at isothermal walls, the energy row in full: the true derivatives of the ghost energy which `Isothermalwall2D::computeGhostStateAndJacobian` computes
(src/spatial/abc.cpp:372-409) are twice the entries it returns for the two momenta, the entry it returns for the energy, and for the density its entry plus a term that vanishes for
walls at rest. -/
theorem C10_isothermal_row (G : Gas) (tv tw : ℝ) (u : St) (n : V2) (hr : u 0 ≠ 0) :
    HasGrad (fun v => (isothermalJ G tv tw v n).gs 3)
      ![(isothermalJ G tv tw u n).dgs 3 0 + 2 * tv * (n 1 * (isothermalJ G tv tw u n).gs 1 - n 0 * (isothermalJ G tv tw u n).gs 2) / u 0,
        2 * (isothermalJ G tv tw u n).dgs 3 1, 2 * (isothermalJ G tv tw u n).dgs 3 2, (isothermalJ G tv tw u n).dgs 3 3] u := by
  have c0 : HasGrad (fun v : St => v 0) (Pi.single 0 1) u := HasGrad.coord 0
  have g1 : HasGrad (fun v : St => 2 * (tv * v 0) * n 1 - v 1) ![2 * tv * n 1, -1, 0, 0] u := by
    refine ((((c0.cmul tv).cmul 2).mul (HasGrad.const (n 1))).sub (HasGrad.coord 1)).congr ?_
    funext k; fin_cases k <;> simp [mul_assoc]
  have g2 : HasGrad (fun v : St => -2 * (tv * v 0) * n 0 - v 2) ![-2 * tv * n 0, 0, -1, 0] u := by
    refine ((((c0.cmul tv).cmul (-2)).mul (HasGrad.const (n 0))).sub (HasGrad.coord 2)).congr ?_
    funext k; fin_cases k <;> simp [mul_assoc]
  have h := c0.mul ((HasGrad.const (tw / (G.g * (G.g - 1) * G.Minf * G.Minf))).add ((((g1.mul g1).add (g2.mul g2)).div (c0.mul c0) (mul_ne_zero hr hr)).cmul (1 / 2)))
  have hf : (fun v : St => (isothermalJ G tv tw v n).gs 3) = fun v : St => v 0 * (tw / (G.g * (G.g - 1) * G.Minf * G.Minf) + 1 / 2 *
      (((2 * (tv * v 0) * n 1 - v 1) * (2 * (tv * v 0) * n 1 - v 1) + (-2 * (tv * v 0) * n 0 - v 2) * (-2 * (tv * v 0) * n 0 - v 2)) / (v 0 * v 0))) := rfl
  rw [hf]
  refine h.congr ?_
  funext k
  fin_cases k <;> simp [isothermalJ, Gas.dEnergyOfT] <;> field_simp <;> ring

/-- Concrete case: at a wall at rest, the row returned for a state in motion is not the derivative. -/
example : ¬ HasGrad (fun v => (isothermalJ air 0 1 v ![1, 0]).gs 3) ((isothermalJ air 0 1 uEx ![1, 0]).dgs 3) uEx := by
  intro h
  have e := congrFun (h.unique (C10_isothermal_row air 0 1 uEx ![1, 0] (by simp [uEx]))) 1
  have q3 : ∀ a b c d : St, (![a, b, c, d] : Fin 4 → St) 3 = d := fun _ _ _ _ => rfl
  simp only [isothermalJ, q3, Gas.dEnergyOfT] at e
  norm_num [uEx, air] at e

end BC
end FVENS
