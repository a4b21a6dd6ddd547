import Verif.Flux.JacAvg

/-!
# The Roe Jacobian where the averaged normal velocity vanishes (C18)

`RoeFlux::get_jacobian`, src/spatial/anumericalflux.cpp:737-965, at states between which the Roe average has no velocity through the face; the entropy fix is active there for the
convective eigenvalues.
-/

namespace FVENS
namespace Flux

variable {G : Gas} {ul ur : St} {n : V2}

/-- C18: where the averaged normal velocity vanishes, the mass row of the coded left block of Roe is the derivative of the mass flux exactly if the density jump is the one of an acoustic
wave, the pressure jump divided by the square of the averaged sound speed. -/
theorem C18_roe_contact_iff (hl : Adm G ul) (hr : Adm G ur) (h0 : (roeOf G ul ur n).vn = 0) :
    HasGrad (fun v => roe G v ur n 0) (fun k => -(roeJac G ul ur n).dfdl 0 k) ul ↔
      ur 0 - ul 0 = (G.varsP ur - G.varsP ul) / ((roeOf G ul ur n).c * (roeOf G ul ur n).c) := by
  have hc : 0 < (roeOf G ul ur n).c := roe_c_pos hl hr
  have hf : (0:ℝ) < fixeps := by norm_num [fixeps]
  have hf1 : fixeps < 1 := by norm_num [fixeps]
  have hdel : 0 < fixeps * (roeOf G ul ur n).c := mul_pos hf hc
  have hA := C18_roe_averages_left hl hr n
  have h1 := hasGrad_roe_left hl hr n (hasGrad_roeL_stagnant hA hc h0) 0
  have hR : 0 < (roeOf G ul ur n).R := roe_R_pos (G := G) (n := n) hl.rho hr.rho
  set di := dRoeI G.g ul ur n (Gas.vel ul) (G.varsH ul) (Gas.vel ur) (G.varsH ur) (G.dVarsH ul) with hdi
  have e : roeAvg G.g ul ur n (Gas.vel ul) (G.varsH ul) (Gas.vel ur) (G.varsH ur) = roeOf G ul ur n := rfl
  have hnf : ∀ (i k : Fin 4), roeL0 (roeOf G ul ur n) i = (roeOf G ul ur n).c →
      roeDL (roeOf G ul ur n) di i k = roeDL0 (roeOf G ul ur n) di i k := by
    intro i k hi
    simp only [roeDL, hi]
    rw [if_neg (by nlinarith)]
  have hdiff : ∀ k, _ := fun k => roeRowL_diff (G := G) (ul := ul) (ur := ur) (n := n)
    (![roeDL0 (roeOf G ul ur n) di 0, fun k => 1 / 2 * fixeps * di.dc k, fun k => 1 / 2 * fixeps * di.dc k,
        roeDL0 (roeOf G ul ur n) di 3]) (roeDL (roeOf G ul ur n) di) k
    (hnf 0 k (by simp [roeL0, h0, abs_of_pos hc])).symm (hnf 3 k (by simp [roeL0, h0, abs_of_pos hc])).symm
  have hdv : di.dvn 3 = 0 := by
    simp [hdi, dRoeI]
  have hdc : di.dc 3 ≠ 0 := by
    have hg := hl.g1
    have hρ := hl.rho
    have : di.dc 3 = 1 / 2 / (roeOf G ul ur n).c * (G.g - 1) * (G.g / ul 0 * ((roeOf G ul ur n).R + 1) / (((roeOf G ul ur n).R + 1) * ((roeOf G ul ur n).R + 1))) := by
      simp only [hdi, dRoeI, e]
      simp [Gas.dVarsH, Gas.dPressure]
    rw [this]
    have g1 : 0 < G.g - 1 := by linarith
    have g2 : 0 < G.g := by linarith
    positivity
  have hdl : 1 / 2 * fixeps * di.dc 3 - roeDL (roeOf G ul ur n) di 1 3 ≠ 0 := by
    have hl0 : roeL0 (roeOf G ul ur n) 1 = 0 := by simp [roeL0, h0]
    have hl1 : roeL (roeOf G ul ur n) 1 = fixeps * (roeOf G ul ur n).c / 2 := by
      simp only [roeL, hl0, harten, if_pos hdel]; field_simp; try ring
    have : roeDL (roeOf G ul ur n) di 1 3 = 3 / 8 * fixeps * di.dc 3 := by
      simp only [roeDL, hl0, if_pos hdel, hl1, roeDL0]
      simp [hdv]; field_simp; ring
    rw [this]
    have : 1 / 2 * fixeps * di.dc 3 - 3 / 8 * fixeps * di.dc 3 = 1 / 8 * fixeps * di.dc 3 := by ring
    rw [this]
    exact mul_ne_zero (by positivity) hdc
  constructor
  · intro hJ
    have h2 := congrFun (h1.unique hJ) 3
    rw [roeJac_rowL] at h2
    have h3 := hdiff 3
    rw [h2, sub_self] at h3
    have h4 := (mul_eq_zero.1 h3.symm).resolve_left (mul_ne_zero (by norm_num) hdl)
    linarith
  · intro hj
    refine h1.congr (funext fun k => ?_)
    rw [roeJac_rowL]
    have h3 := hdiff k
    rw [hj, sub_self, mul_zero] at h3
    linarith

/-- How the mass row of the right block depends on the derivative of the middle eigenvalue. -/
theorem roeRowR_diff (dl dl' : Fin 4 → St) (k : Fin 4) (h0 : dl 0 k = dl' 0 k) (h3 : dl 3 k = dl' 3 k) :
    roeRowR G ul ur n dl 0 k - roeRowR G ul ur n dl' 0 k = -(1 / 2) * (dl 1 k - dl' 1 k) *
      (ur 0 - ul 0 - (G.varsP ur - G.varsP ul) / ((roeOf G ul ur n).c * (roeOf G ul ur n).c)) := by
  simp [roeRowR, roeDADU, roeDLA, h0, h3]; ring

/-- C18: where the averaged normal velocity vanishes, the mass row of the coded right block of Roe is the derivative of the mass flux exactly if the density jump is the one of an acoustic
wave, the pressure jump divided by the square of the averaged sound speed. -/
theorem C18_roe_contact_right_iff (hl : Adm G ul) (hr : Adm G ur) (h0 : (roeOf G ul ur n).vn = 0) :
    HasGrad (fun v => roe G ul v n 0) ((roeJac G ul ur n).dfdr 0) ur ↔
      ur 0 - ul 0 = (G.varsP ur - G.varsP ul) / ((roeOf G ul ur n).c * (roeOf G ul ur n).c) := by
  have hc : 0 < (roeOf G ul ur n).c := roe_c_pos hl hr
  have hf : (0:ℝ) < fixeps := by norm_num [fixeps]
  have hf1 : fixeps < 1 := by norm_num [fixeps]
  have hdel : 0 < fixeps * (roeOf G ul ur n).c := mul_pos hf hc
  have hA := C18_roe_averages_right hl hr n
  have h1 := hasGrad_roe_right hl hr n (hasGrad_roeL_stagnant hA hc h0) 0
  have hR : 0 < (roeOf G ul ur n).R := roe_R_pos (G := G) (n := n) hl.rho hr.rho
  set di := dRoeJ G.g ul ur n (Gas.vel ul) (G.varsH ul) (Gas.vel ur) (G.varsH ur) (G.dVarsH ur) with hdi
  have e : roeAvg G.g ul ur n (Gas.vel ul) (G.varsH ul) (Gas.vel ur) (G.varsH ur) = roeOf G ul ur n := rfl
  have hnf : ∀ (i k : Fin 4), roeL0 (roeOf G ul ur n) i = (roeOf G ul ur n).c →
      roeDL (roeOf G ul ur n) di i k = roeDL0 (roeOf G ul ur n) di i k := by
    intro i k hi
    simp only [roeDL, hi]
    rw [if_neg (by nlinarith)]
  have hdiff : ∀ k, _ := fun k => roeRowR_diff (G := G) (ul := ul) (ur := ur) (n := n)
    (![roeDL0 (roeOf G ul ur n) di 0, fun k => 1 / 2 * fixeps * di.dc k, fun k => 1 / 2 * fixeps * di.dc k,
        roeDL0 (roeOf G ul ur n) di 3]) (roeDL (roeOf G ul ur n) di) k
    (hnf 0 k (by simp [roeL0, h0, abs_of_pos hc])).symm (hnf 3 k (by simp [roeL0, h0, abs_of_pos hc])).symm
  have hdv : di.dvn 3 = 0 := by
    simp [hdi, dRoeJ]
  have hdc : di.dc 3 ≠ 0 := by
    have hg := hl.g1
    have hρ := hr.rho
    have : di.dc 3 = 1 / 2 / (roeOf G ul ur n).c * (G.g - 1) * ((roeOf G ul ur n).R * (G.g / ur 0) * ((roeOf G ul ur n).R + 1) / (((roeOf G ul ur n).R + 1) * ((roeOf G ul ur n).R + 1))) := by
      simp only [hdi, dRoeJ, e]
      simp [Gas.dVarsH, Gas.dPressure]
    rw [this]
    have g1 : 0 < G.g - 1 := by linarith
    have g2 : 0 < G.g := by linarith
    positivity
  have hdl : 1 / 2 * fixeps * di.dc 3 - roeDL (roeOf G ul ur n) di 1 3 ≠ 0 := by
    have hl0 : roeL0 (roeOf G ul ur n) 1 = 0 := by simp [roeL0, h0]
    have hl1 : roeL (roeOf G ul ur n) 1 = fixeps * (roeOf G ul ur n).c / 2 := by
      simp only [roeL, hl0, harten, if_pos hdel]; field_simp; try ring
    have : roeDL (roeOf G ul ur n) di 1 3 = 3 / 8 * fixeps * di.dc 3 := by
      simp only [roeDL, hl0, if_pos hdel, hl1, roeDL0]
      simp [hdv]; field_simp; ring
    rw [this]
    have : 1 / 2 * fixeps * di.dc 3 - 3 / 8 * fixeps * di.dc 3 = 1 / 8 * fixeps * di.dc 3 := by ring
    rw [this]
    exact mul_ne_zero (by positivity) hdc
  constructor
  · intro hJ
    have h2 := congrFun (h1.unique hJ) 3
    rw [roeJac_rowR] at h2
    have h3 := hdiff 3
    rw [h2, sub_self] at h3
    have h4 := (mul_eq_zero.1 h3.symm).resolve_left (mul_ne_zero (by norm_num) hdl)
    linarith
  · intro hj
    refine h1.congr (funext fun k => ?_)
    rw [roeJac_rowR]
    have h3 := hdiff k
    rw [hj, sub_self, mul_zero] at h3
    linarith

/-- The contact between densities one and four at rest: averaged normal velocity zero, no pressure jump, so that the coded row is wrong. -/
example : (roeOf air uC1 uC4 ![1, 0]).vn = 0 ∧ ¬ HasGrad (fun v => roe air v uC4 ![1, 0] 0) (fun k => -(roeJac air uC1 uC4 ![1, 0]).dfdl 0 k) uC1 := by
  have h0 : (roeOf air uC1 uC4 ![1, 0]).vn = 0 := by
    simp [roeOf, roeAvg, uC1, uC4, dot, Gas.vel]
  refine ⟨h0, fun h => ?_⟩
  have := (C18_roe_contact_iff adm_uC1 adm_uC4 h0).1 h
  rw [contact_uC.pl, contact_uC.pr] at this
  simp [uC1, uC4] at this
  norm_num at this

/-- The same contact seen from the other cell. -/
example : ¬ HasGrad (fun v => roe air uC1 v ![1, 0] 0) ((roeJac air uC1 uC4 ![1, 0]).dfdr 0) uC4 := by
  have h0 : (roeOf air uC1 uC4 ![1, 0]).vn = 0 := by
    simp [roeOf, roeAvg, uC1, uC4, dot, Gas.vel]
  intro h
  have := (C18_roe_contact_right_iff adm_uC1 adm_uC4 h0).1 h
  rw [contact_uC.pl, contact_uC.pr] at this
  simp [uC1, uC4] at this
  norm_num at this

end Flux
end FVENS
