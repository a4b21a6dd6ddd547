import Verif.Flux.Model
import Verif.BC.Props

/-!
# Elementary facts about the values the fluxes compute for each side
-/

namespace FVENS
namespace Flux

/-- Admissible gas and state: `γ > 1`, positive density and pressure. -/
structure Adm (G : Gas) (u : St) : Prop where
  g1 : 1 < G.g
  rho : 0 < u 0
  p : 0 < G.pressure u

variable {G : Gas} {u ul ur : St} {n : V2}

theorem Adm.rho' (h : Adm G u) : u 0 ≠ 0 := h.rho.ne'

theorem varsP_eq (hr : u 0 ≠ 0) : G.varsP u = G.pressure u := (C01_vars_agree G u 0 hr).1

theorem Adm.vp (h : Adm G u) : 0 < G.varsP u := by rw [varsP_eq h.rho']; exact h.p

theorem Adm.c_pos (h : Adm G u) : 0 < cSide G u :=
  Real.sqrt_pos.mpr (div_pos (mul_pos (by linarith [h.g1]) h.vp) h.rho)

theorem Adm.c_sq (h : Adm G u) : cSide G u * cSide G u * u 0 = G.g * G.varsP u := by
  have hq : 0 ≤ G.g * G.varsP u / u 0 :=
    (div_pos (mul_pos (by linarith [h.g1]) h.vp) h.rho).le
  unfold cSide Gas.soundSpeed
  rw [Real.mul_self_sqrt hq, div_mul_cancel₀ _ h.rho']

theorem eulerFlux_eq (hr : u 0 ≠ 0) (n : V2) :
    G.eulerFlux u n = Gas.dirFlux u n (Gas.varsVn u n) (G.varsP u) := by
  rw [varsP_eq hr, (C01_vars_agree G u n hr).2.2]; rfl

theorem varsH_eq (hr : u 0 ≠ 0) : u 0 * G.varsH u = u 3 + G.varsP u := by
  simp only [Gas.varsH]; field_simp

/-- Energy in terms of pressure and velocity. -/
theorem energy_eq (h : Adm G u) :
    u 3 = G.varsP u / (G.g - 1) + u 0 * (Gas.vel u 0 * Gas.vel u 0 + Gas.vel u 1 * Gas.vel u 1) / 2 := by
  have hg : G.g - 1 ≠ 0 := by linarith [h.g1]
  simp only [Gas.varsP, dot]; field_simp; ring

theorem mom1_eq (hr : u 0 ≠ 0) : u 1 = u 0 * Gas.vel u 0 := by simp [Gas.vel]; field_simp
theorem mom2_eq (hr : u 0 ≠ 0) : u 2 = u 0 * Gas.vel u 1 := by simp [Gas.vel]; field_simp

theorem varsVn_def (u : St) (n : V2) :
    Gas.varsVn u n = Gas.vel u 0 * n 0 + Gas.vel u 1 * n 1 := rfl

theorem varsVn_neg (u : St) (n : V2) : Gas.varsVn u (-n) = -Gas.varsVn u n := by
  simp [Gas.varsVn, dot]; ring

theorem dirFlux_neg (u : St) (n : V2) (vn p : ℝ) (i : Fin 4) :
    Gas.dirFlux u (-n) (-vn) p i = -Gas.dirFlux u n vn p i := by
  fin_cases i <;> simp [Gas.dirFlux] <;> ring

/-- The example states of this file: two subsonic/supersonic states of air. -/
noncomputable def uA : St := ![1, 1/2, 0, 107/56]
/-- Second example state: `ρ = 4`, pressure 3. -/
noncomputable def uB : St := ![4, 2, 4, 10]

theorem adm_uA : Adm air uA := ⟨by norm_num [air], by norm_num [uA], by
  simp [Gas.pressure, Gas.pressureOfInternal, air, uA, dot, mom]; norm_num⟩
theorem adm_uB : Adm air uB := ⟨by norm_num [air], by norm_num [uB], by
  simp [Gas.pressure, Gas.pressureOfInternal, air, uB, dot, mom]; norm_num⟩
theorem adm_uEx : Adm air uEx := ⟨by norm_num [air], by norm_num [uEx], by
  rw [uEx_pressure]; norm_num⟩

/-! ### Roe averages -/

theorem roe_R_pos (hl : 0 < ul 0) (hr : 0 < ur 0) : 0 < (roeOf G ul ur n).R :=
  Real.sqrt_pos.mpr (div_pos hr hl)

theorem roe_R_sq (hl : 0 < ul 0) (hr : 0 < ur 0) :
    (roeOf G ul ur n).R * (roeOf G ul ur n).R * ul 0 = ur 0 := by
  show Real.sqrt (ur 0 / ul 0) * Real.sqrt (ur 0 / ul 0) * ul 0 = ur 0
  rw [Real.mul_self_sqrt (div_pos hr hl).le, div_mul_cancel₀ _ hl.ne']

/-- Square of the Roe sound speed as a weighted mean of the squares of the sound speeds plus a
velocity-difference term. -/
theorem roe_c_sq_arg (hl : Adm G ul) (hr : Adm G ur) :
    let a := roeOf G ul ur n
    (G.g - 1) * (a.H - a.vm2 * (1 / 2)) =
      (cSide G ul * cSide G ul + a.R * (cSide G ur * cSide G ur)) / (1 + a.R)
      + (G.g - 1) / 2 * a.R * ((Gas.vel ur 0 - Gas.vel ul 0) ^ 2 + (Gas.vel ur 1 - Gas.vel ul 1) ^ 2)
        / (1 + a.R) ^ 2 := by
  intro a
  have hR : 0 < a.R := roe_R_pos hl.rho hr.rho
  have hg : G.g - 1 ≠ 0 := by linarith [hl.g1]
  have e : ∀ {w : St}, Adm G w → G.varsH w = cSide G w * cSide G w / (G.g - 1)
      + (Gas.vel w 0 * Gas.vel w 0 + Gas.vel w 1 * Gas.vel w 1) / 2 := by
    intro w hw
    have h1 := hw.c_sq
    have h2 := energy_eq hw
    have h3 := hw.rho'
    simp only [Gas.varsH]
    rw [h2]
    field_simp
    linear_combination (-2 : ℝ) * h1
  have hH : a.H = (a.R * G.varsH ur + G.varsH ul) / (a.R + 1) := rfl
  have hv : a.vm2 = ((a.R * Gas.vel ur 0 + Gas.vel ul 0) / (a.R + 1)) * ((a.R * Gas.vel ur 0 + Gas.vel ul 0) / (a.R + 1))
     + ((a.R * Gas.vel ur 1 + Gas.vel ul 1) / (a.R + 1)) * ((a.R * Gas.vel ur 1 + Gas.vel ul 1) / (a.R + 1)) := by
    simp [a, roeOf, roeAvg, dot]
  rw [hH, hv, e hl, e hr]
  have h1 : a.R + 1 ≠ 0 := by positivity
  have h2 : 1 + a.R ≠ 0 := by positivity
  field_simp
  ring

theorem roe_arg_pos (hl : Adm G ul) (hr : Adm G ur) :
    0 < (G.g - 1) * ((roeOf G ul ur n).H - (roeOf G ul ur n).vm2 * (1 / 2)) := by
  have h := roe_c_sq_arg (n := n) hl hr
  simp only at h
  rw [h]
  have hR : 0 < (roeOf G ul ur n).R := roe_R_pos hl.rho hr.rho
  have := hl.c_pos
  have := hr.c_pos
  have hg : 0 < G.g - 1 := by linarith [hl.g1]
  positivity

theorem roe_c_pos (hl : Adm G ul) (hr : Adm G ur) : 0 < (roeOf G ul ur n).c :=
  Real.sqrt_pos.mpr (roe_arg_pos (n := n) hl hr)

theorem roe_c_sq (hl : Adm G ul) (hr : Adm G ur) :
    (roeOf G ul ur n).c * (roeOf G ul ur n).c
      = (G.g - 1) * ((roeOf G ul ur n).H - (roeOf G ul ur n).vm2 * (1 / 2)) :=
  Real.mul_self_sqrt (roe_arg_pos (n := n) hl hr).le

/-! ### Wave speeds -/

theorem waveL_le (vni ci : ℝ) (a : Avg) : waveL vni ci a ≤ vni - ci ∧ waveL vni ci a ≤ a.vn - a.c := by
  unfold waveL; split_ifs with h <;> constructor <;> linarith

theorem waveR_ge (vnj cj : ℝ) (a : Avg) : vnj + cj ≤ waveR vnj cj a ∧ a.vn + a.c ≤ waveR vnj cj a := by
  unfold waveR; split_ifs with h <;> constructor <;> linarith

theorem sl_lt_sr (hl : Adm G ul) (hr : Adm G ur) : slOf G ul ur n < srOf G ul ur n := by
  have h1 := (waveL_le (Gas.varsVn ul n) (cSide G ul) (roeOf G ul ur n)).2
  have h2 := (waveR_ge (Gas.varsVn ur n) (cSide G ur) (roeOf G ul ur n)).2
  have h3 := roe_c_pos (n := n) hl hr
  unfold slOf srOf; linarith

theorem sl_lt_vn (hl : Adm G ul) : slOf G ul ur n < Gas.varsVn ul n := by
  have h1 := (waveL_le (Gas.varsVn ul n) (cSide G ul) (roeOf G ul ur n)).1
  have := hl.c_pos
  unfold slOf; linarith

theorem vn_lt_sr (hr : Adm G ur) : Gas.varsVn ur n < srOf G ul ur n := by
  have h1 := (waveR_ge (Gas.varsVn ur n) (cSide G ur) (roeOf G ul ur n)).1
  have := hr.c_pos
  unfold srOf; linarith

/-- Denominator of the contact speed. -/
theorem den_pos (hl : Adm G ul) (hr : Adm G ur) :
    0 < ur 0 * (srOf G ul ur n - Gas.varsVn ur n) - ul 0 * (slOf G ul ur n - Gas.varsVn ul n) := by
  have h1 := mul_pos hr.rho (sub_pos.mpr (vn_lt_sr (ul := ul) (n := n) hr))
  have h2 := mul_pos hl.rho (sub_pos.mpr (sl_lt_vn (ur := ur) (n := n) hl))
  linarith

theorem ausmpC_pos (hl : Adm G ul) (hr : Adm G ur) : 0 < ausmpCOf G ul ur n := by
  have hg : 0 < G.g - 1 := by linarith [hl.g1]
  have hg2 : 0 < G.g + 1 := by linarith [hl.g1]
  have hc1 := hl.c_pos
  have hc2 := hr.c_pos
  have k : ∀ c w : ℝ, 0 < c → 0 ≤ w → 0 < critC G.g c w := by
    intro c w hc hw
    apply Real.sqrt_pos.mpr; positivity
  have h1 := k (cSide G ul) (dot (Gas.vel ul) (Gas.vel ul)) hc1
    (add_nonneg (mul_self_nonneg _) (mul_self_nonneg _))
  have h2 := k (cSide G ur) (dot (Gas.vel ur) (Gas.vel ur)) hc2
    (add_nonneg (mul_self_nonneg _) (mul_self_nonneg _))
  unfold ausmpCOf ausmpC
  simp only
  have q1 : 0 < (if critC G.g (cSide G ul) (dot (Gas.vel ul) (Gas.vel ul)) > Gas.varsVn ul n then
      critC G.g (cSide G ul) (dot (Gas.vel ul) (Gas.vel ul)) else Gas.varsVn ul n) := by
    split_ifs with h
    · exact h1
    · linarith
  have q2 : 0 < (if critC G.g (cSide G ur) (dot (Gas.vel ur) (Gas.vel ur)) > -Gas.varsVn ur n then
      critC G.g (cSide G ur) (dot (Gas.vel ur) (Gas.vel ur)) else -Gas.varsVn ur n) := by
    split_ifs with h
    · exact h2
    · linarith
  have m : ∀ a b : ℝ, 0 < a → 0 < b → 0 < if a < b then a else b := by
    intro a b ha hb; split_ifs <;> assumption
  exact m _ _ (div_pos (mul_pos h1 h1) q1) (div_pos (mul_pos h2 h2) q2)

end Flux
end FVENS
