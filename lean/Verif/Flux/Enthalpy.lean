import Verif.Flux.Shock
import Verif.Flux.Carried
import Verif.Flux.Positive

/-!
# Total enthalpy carried by the mass flux (C111)

In steady flow without heat conduction the energy flux is the mass flux times the total enthalpy of the gas that crosses the face. Which schemes have this, and how far the
others are from it.
-/

namespace FVENS
namespace Flux

/-! ### Specification -/

/-- Total enthalpy per mass: energy and pressure over density. -/
noncomputable def enthalpy (G : Gas) (u : St) : ℝ := (u 3 + G.pressure u) / u 0

/-! ### Auxiliary results -/

theorem vl_plus_alg {g c : ℝ} (hc : c ≠ 0) (h1 : g - 1 ≠ 0) (h2 : g + 1 ≠ 0) (r v k : ℝ) : r * c * (v / c + 1) ^ 2 / 4 * ((k - v * v) / 2 + ((g - 1) * v + 2 * c) ^ 2 / (2 * (g * g - 1))) =
    (c * c / (g - 1) + k / 2) * (r * c * (v / c + 1) ^ 2 / 4) - r * c ^ 3 * (1 - (v / c) ^ 2) ^ 2 / (4 * (g + 1)) := by
  rw [show g * g - 1 = (g - 1) * (g + 1) by ring]
  field_simp
  ring

theorem vl_minus_alg {g c : ℝ} (hc : c ≠ 0) (h1 : g - 1 ≠ 0) (h2 : g + 1 ≠ 0) (r v k : ℝ) : -r * c * (v / c - 1) ^ 2 / 4 * ((k - v * v) / 2 + ((g - 1) * v - 2 * c) ^ 2 / (2 * (g * g - 1))) =
    (c * c / (g - 1) + k / 2) * (-r * c * (v / c - 1) ^ 2 / 4) + r * c ^ 3 * (1 - (v / c) ^ 2) ^ 2 / (4 * (g + 1)) := by
  rw [show g * g - 1 = (g - 1) * (g + 1) by ring]
  field_simp
  ring

section
variable {G : Gas} {ul ur : St} {n : V2} {H : ℝ}

theorem enthalpy_eq {u : St} (hu : Adm G u) : enthalpy G u = G.varsH u := by
  unfold enthalpy Gas.varsH
  rw [varsP_eq hu.rho']

theorem enthalpy_mul {u : St} (hu : Adm G u) : u 3 + G.varsP u = u 0 * enthalpy G u := by
  rw [enthalpy_eq hu, varsH_eq hu.rho']

variable (hl : Adm G ul) (hr : Adm G ur)
include hl hr

/-- C111: AUSM and AUSM+ move exactly the total enthalpy of the side the mass comes from. -/
theorem C111_upwind {sch : Scheme} (hs : sch = .ausm ∨ sch = .ausmPlus) :
    sch.flux G ul ur n 3 = sch.flux G ul ur n 0 * (if 0 < sch.flux G ul ur n 0 then enthalpy G ul else enthalpy G ur) := by
  have el := enthalpy_mul hl
  have er := enthalpy_mul hr
  have cl := hl.c_pos
  have cr := hr.c_pos
  rcases hs with rfl | rfl
  · have key : ∀ M q : ℝ, ausmCore ul ur n M q (G.varsP ul) (G.varsP ur) (cSide G ul) (cSide G ur) 3 =
        ausmCore ul ur n M q (G.varsP ul) (G.varsP ur) (cSide G ul) (cSide G ur) 0 *
          (if 0 < ausmCore ul ur n M q (G.varsP ul) (G.varsP ur) (cSide G ul) (cSide G ur) 0 then enthalpy G ul else enthalpy G ur) := fun M q => by
      by_cases hM : 0 < M
      · have e0 : ausmCore ul ur n M q (G.varsP ul) (G.varsP ur) (cSide G ul) (cSide G ur) 0 = M * cSide G ul * ul 0 := by
          simp [ausmCore, abs_of_pos hM]; ring
        have e3 : ausmCore ul ur n M q (G.varsP ul) (G.varsP ur) (cSide G ul) (cSide G ur) 3 = M * cSide G ul * (ul 3 + G.varsP ul) := by
          simp [ausmCore, abs_of_pos hM]; ring
        rw [e0, e3, el, if_pos (mul_pos (mul_pos hM cl) hl.rho)]; ring
      · have e0 : ausmCore ul ur n M q (G.varsP ul) (G.varsP ur) (cSide G ul) (cSide G ur) 0 = M * cSide G ur * ur 0 := by
          simp [ausmCore, abs_of_nonpos (not_lt.1 hM)]; ring
        have e3 : ausmCore ul ur n M q (G.varsP ul) (G.varsP ur) (cSide G ul) (cSide G ur) 3 = M * cSide G ur * (ur 3 + G.varsP ur) := by
          simp [ausmCore, abs_of_nonpos (not_lt.1 hM)]; ring
        rw [e0, e3, er, if_neg (not_lt.2 (mul_nonpos_of_nonpos_of_nonneg (mul_nonpos_of_nonpos_of_nonneg (not_lt.1 hM) cr.le) hr.rho.le))]; ring
    exact key (ausmML (Gas.varsVn ul n / cSide G ul) + ausmMR (Gas.varsVn ur n / cSide G ur))
      (ausmPL (Gas.varsVn ul n / cSide G ul) (G.varsP ul) + ausmPR (Gas.varsVn ur n / cSide G ur) (G.varsP ur))
  · have hc := ausmpC_pos (n := n) hl hr
    have key : ∀ ch M q : ℝ, 0 < ch → ausmpCore ul ur n ch M q (G.varsP ul) (G.varsP ur) 3 = ausmpCore ul ur n ch M q (G.varsP ul) (G.varsP ur) 0 *
          (if 0 < ausmpCore ul ur n ch M q (G.varsP ul) (G.varsP ur) 0 then enthalpy G ul else enthalpy G ur) := fun ch M q hc => by
      by_cases hM : 0 < M
      · have e0 : ausmpCore ul ur n ch M q (G.varsP ul) (G.varsP ur) 0 = ch * M * ul 0 := by
          simp [ausmpCore, abs_of_pos hM]; ring
        have e3 : ausmpCore ul ur n ch M q (G.varsP ul) (G.varsP ur) 3 = ch * M * (ul 3 + G.varsP ul) := by
          simp [ausmpCore, abs_of_pos hM]; ring
        rw [e0, e3, el, if_pos (mul_pos (mul_pos hc hM) hl.rho)]; ring
      · have e0 : ausmpCore ul ur n ch M q (G.varsP ul) (G.varsP ur) 0 = ch * M * ur 0 := by
          simp [ausmpCore, abs_of_nonpos (not_lt.1 hM)]; ring
        have e3 : ausmpCore ul ur n ch M q (G.varsP ul) (G.varsP ur) 3 = ch * M * (ur 3 + G.varsP ur) := by
          simp [ausmpCore, abs_of_nonpos (not_lt.1 hM)]; ring
        rw [e0, e3, er, if_neg (not_lt.2 (mul_nonpos_of_nonpos_of_nonneg (mul_nonpos_of_nonneg_of_nonpos hc.le (not_lt.1 hM)) hr.rho.le))]; ring
    exact key _ (ausmpML (Gas.varsVn ul n / ausmpCOf G ul ur n) + ausmpMR (Gas.varsVn ur n / ausmpCOf G ul ur n))
      (ausmpPL (Gas.varsVn ul n / ausmpCOf G ul ur n) (G.varsP ul) + ausmpPR (Gas.varsVn ur n / ausmpCOf G ul ur n) (G.varsP ur)) hc

variable (hHl : enthalpy G ul = H) (hHr : enthalpy G ur = H)
include hHl hHr

theorem euler_enthalpy : G.eulerFlux ul n 3 = H * G.eulerFlux ul n 0 ∧ G.eulerFlux ur n 3 = H * G.eulerFlux ur n 0 := by
  have el := enthalpy_mul hl
  have er := enthalpy_mul hr
  rw [hHl] at el
  rw [hHr] at er
  rw [eulerFlux_eq hl.rho', eulerFlux_eq hr.rho']
  constructor
  · simp [Gas.dirFlux]; linear_combination Gas.varsVn ul n * el
  · simp [Gas.dirFlux]; linear_combination Gas.varsVn ur n * er

theorem energy_jump : ur 3 - ul 3 = H * (ur 0 - ul 0) - (G.varsP ur - G.varsP ul) := by
  have el := enthalpy_mul hl
  have er := enthalpy_mul hr
  rw [hHl] at el
  rw [hHr] at er
  linear_combination er - el

/-- C111, LLF: between sides of the same total enthalpy the energy flux is off by half the wave speed times the difference of the pressures. -/
theorem C111_llf : llf G ul ur n 3 = H * llf G ul ur n 0 + llfEig (Gas.varsVn ul n) (cSide G ul) (Gas.varsVn ur n) (cSide G ur) / 2 * (G.varsP ur - G.varsP ul) := by
  obtain ⟨h1, h2⟩ := euler_enthalpy (n := n) hl hr hHl hHr
  have h3 := energy_jump hl hr hHl hHr
  simp only [llf, h1, h2]
  rw [h3]; ring

/-- C111, HLL. -/
theorem C111_hll : hll G ul ur n 3 = H * hll G ul ur n 0 + hllT3 (slOf G ul ur n) (srOf G ul ur n) * (G.varsP ur - G.varsP ul) := by
  obtain ⟨h1, h2⟩ := euler_enthalpy (n := n) hl hr hHl hHr
  have h3 := energy_jump hl hr hHl hHr
  rw [hll_eq hl hr, hll_eq hl hr, h1, h2, h3]; ring

/-- C111, van Leer's scheme in subsonic flow: it is exact only if density times the cube of the speed of sound times the square of one minus the square of the Mach number is the same
on both sides. -/
theorem C111_vanLeer (h1 : |Gas.varsVn ul n| ≤ cSide G ul) (h2 : |Gas.varsVn ur n| ≤ cSide G ur) :
    vanLeer G ul ur n 3 = H * vanLeer G ul ur n 0 + (ur 0 * cSide G ur ^ 3 * (1 - (Gas.varsVn ur n / cSide G ur) ^ 2) ^ 2 -
      ul 0 * cSide G ul ^ 3 * (1 - (Gas.varsVn ul n / cSide G ul) ^ 2) ^ 2) / (4 * (G.g + 1)) := by
  have cl := hl.c_pos
  have cr := hr.c_pos
  have hg := hl.g1
  have hg1 : G.g - 1 ≠ 0 := by linarith
  have hg2 : G.g + 1 ≠ 0 := by linarith
  have k1 : ¬ Gas.varsVn ul n / cSide G ul < -1 ∧ ¬ Gas.varsVn ul n / cSide G ul > 1 := by
    rw [not_lt, gt_iff_lt, not_lt, div_le_one cl, le_div_iff₀ cl]
    exact ⟨by linarith [(abs_le.1 h1).1], (abs_le.1 h1).2⟩
  have k2 : ¬ Gas.varsVn ur n / cSide G ur < -1 ∧ ¬ Gas.varsVn ur n / cSide G ur > 1 := by
    rw [not_lt, gt_iff_lt, not_lt, div_le_one cr, le_div_iff₀ cr]
    exact ⟨by linarith [(abs_le.1 h2).1], (abs_le.1 h2).2⟩
  have e : ∀ {u : St}, Adm G u → enthalpy G u = cSide G u * cSide G u / (G.g - 1) + ((u 1 / u 0) ^ 2 + (u 2 / u 0) ^ 2) / 2 := by
    intro u hu
    have q1 := hu.c_sq
    have q2 := energy_eq hu
    have q3 := hu.rho'
    simp only [Gas.vel] at q2
    simp at q2
    rw [enthalpy_eq hu]
    simp only [Gas.varsH]
    rw [q2]
    field_simp
    linear_combination (-2 : ℝ) * u 0 * q1
  have e1 := e hl
  have e2 := e hr
  rw [hHl] at e1
  rw [hHr] at e2
  have f1 : vlPlus G.g ul n (Gas.varsVn ul n) (G.varsP ul) (cSide G ul) 3 = H * vlPlus G.g ul n (Gas.varsVn ul n) (G.varsP ul) (cSide G ul) 0 -
      ul 0 * cSide G ul ^ 3 * (1 - (Gas.varsVn ul n / cSide G ul) ^ 2) ^ 2 / (4 * (G.g + 1)) := by
    unfold vlPlus
    simp only [k1.1, k1.2, if_false]
    rw [e1]
    exact vl_plus_alg cl.ne' hg1 hg2 _ _ _
  have f2 : vlMinus G.g ur n (Gas.varsVn ur n) (G.varsP ur) (cSide G ur) 3 = H * vlMinus G.g ur n (Gas.varsVn ur n) (G.varsP ur) (cSide G ur) 0 +
      ur 0 * cSide G ur ^ 3 * (1 - (Gas.varsVn ur n / cSide G ur) ^ 2) ^ 2 / (4 * (G.g + 1)) := by
    unfold vlMinus
    simp only [k2.1, k2.2, if_false]
    rw [e2]
    exact vl_minus_alg cr.ne' hg1 hg2 _ _ _
  simp only [vanLeer]
  rw [f1, f2]
  ring

/-- C111, HLLC: the error on the side of the contact that lies over the face. -/
theorem C111_hllc (hg : 4 ≤ 3 * G.g) : hllc G ul ur n 3 = H * hllc G ul ur n 0 +
    (if 0 < slOf G ul ur n then 0
    else if 0 < smOf G ul ur n then slOf G ul ur n * smOf G ul ur n * (ul 0 * (Gas.varsVn ul n - slOf G ul ur n) * (Gas.varsVn ul n - smOf G ul ur n)) / (slOf G ul ur n - smOf G ul ur n)
    else if 0 ≤ srOf G ul ur n then srOf G ul ur n * smOf G ul ur n * (ur 0 * (Gas.varsVn ur n - srOf G ul ur n) * (Gas.varsVn ur n - smOf G ul ur n)) / (srOf G ul ur n - smOf G ul ur n)
    else 0) := by
  have h1 := sl_lt_sm (n := n) hg hl hr
  have h2 := sm_lt_sr (n := n) hg hl hr
  obtain ⟨e1, e2⟩ := euler_enthalpy (n := n) hl hr hHl hHr
  rw [eulerFlux_eq hl.rho', eulerFlux_eq hr.rho'] at *
  have el := enthalpy_mul hl
  have er := enthalpy_mul hr
  rw [hHl] at el
  rw [hHr] at er
  unfold hllc
  generalize slOf G ul ur n = sl at *
  generalize srOf G ul ur n = sr at *
  generalize smOf G ul ur n = sm at *
  have d1 : sl - sm ≠ 0 := by linarith
  have d2 : sr - sm ≠ 0 := by linarith
  have s1 : star ul n (Gas.varsVn ul n) (G.varsP ul) sl sm 3 - ul 3 = H * (star ul n (Gas.varsVn ul n) (G.varsP ul) sl sm 0 - ul 0) +
      sm * (ul 0 * (Gas.varsVn ul n - sl) * (Gas.varsVn ul n - sm)) / (sl - sm) := by
    simp [star]
    field_simp
    linear_combination (sm - Gas.varsVn ul n) * el
  have s2 : star ur n (Gas.varsVn ur n) (G.varsP ur) sr sm 3 - ur 3 = H * (star ur n (Gas.varsVn ur n) (G.varsP ur) sr sm 0 - ur 0) +
      sm * (ur 0 * (Gas.varsVn ur n - sr) * (Gas.varsVn ur n - sm)) / (sr - sm) := by
    simp [star]
    field_simp
    linear_combination (sm - Gas.varsVn ur n) * er
  unfold hllcCore
  by_cases k1 : 0 < sl
  · simp only [if_pos k1, e1]; simp
  · have k1' := not_lt.1 k1
    by_cases k2 : 0 < sm
    · have : sl ≤ 0 ∧ sm > 0 := ⟨k1', k2⟩
      simp only [k1, gt_iff_lt, if_false, k1', k2, and_self, if_true, e1, s1]
      ring
    · have k2' := not_lt.1 k2
      by_cases k3 : 0 ≤ sr
      · simp only [k1, gt_iff_lt, if_false, k1', k2, and_false, k2', ge_iff_le, k3, and_self, if_true, e2, s2]
        ring
      · simp only [k1, gt_iff_lt, if_false, k2, and_false, ge_iff_le, k3, e2]
        simp

end

/-! ### Which schemes -/

/-- Air at rest, density 1, speed of sound 1. -/
noncomputable def thin : St := carried air ![0, 0] (5 / 7) 1
/-- Air at rest of the same temperature, density 4. -/
noncomputable def thick : St := carried air ![0, 0] (20 / 7) 4

theorem air_g1 : 1 < air.g := by norm_num [air]
theorem thin_adm : Adm air thin := carried_adm air_g1 one_pos (by norm_num)
theorem thick_adm : Adm air thick := carried_adm air_g1 (by norm_num) (by norm_num)
theorem thin_c : cSide air thin = 1 := air_one _
theorem thick_c : cSide air thick = 1 := carried_c air_g1 1 (by norm_num) zero_le_one (by norm_num [air])
theorem thin_p : air.varsP thin = 5 / 7 := carried_p air_g1 one_ne_zero
theorem thick_p : air.varsP thick = 20 / 7 := carried_p air_g1 four_ne_zero
theorem thin_vn (n : V2) : Gas.varsVn thin n = 0 := by rw [thin, carried_vn one_ne_zero]; simp
theorem thick_vn (n : V2) : Gas.varsVn thick n = 0 := by rw [thick, carried_vn four_ne_zero]; simp
theorem thin_H : enthalpy air thin = 5 / 2 := by
  rw [enthalpy_eq thin_adm]; unfold Gas.varsH; rw [thin_p]; simp [thin, carried, air]; norm_num
theorem thick_H : enthalpy air thick = 5 / 2 := by
  rw [enthalpy_eq thick_adm]; unfold Gas.varsH; rw [thick_p]; simp [thick, carried, air]; norm_num

theorem thin_thick_roe (n : V2) : (roeOf air thin thick n).R = 2 ∧ (roeOf air thin thick n).v = 0 ∧ (roeOf air thin thick n).c = 1 := by
  have hR : (roeOf air thin thick n).R = 2 := by
    show Real.sqrt (4 / 1) = 2
    rw [show (4 / 1 : ℝ) = 2 ^ 2 by norm_num]
    exact Real.sqrt_sq (by norm_num)
  have hv : ∀ (p r : ℝ), r ≠ 0 → Gas.vel (carried air ![0, 0] p r) = ![0, 0] := fun p r h => carried_vel h
  refine ⟨hR, ?_, ?_⟩
  · funext d
    simp only [roeOf, roeAvg, thin, thick]
    rw [hv _ _ one_ne_zero, hv _ _ four_ne_zero]
    fin_cases d <;> simp
  · have h1 := roe_c_sq (n := n) thin_adm thick_adm
    have h2 := roe_c_pos (n := n) thin_adm thick_adm
    have v1 : Gas.vel thin = ![0, 0] := hv _ _ one_ne_zero
    have v2 : Gas.vel thick = ![0, 0] := hv _ _ four_ne_zero
    rw [roe_c_sq_arg (n := n) thin_adm thick_adm, v1, v2, hR, thin_c, thick_c] at h1
    generalize (roeOf air thin thick n).c = c at *
    norm_num at h1
    nlinarith

/-- C111: AUSM and AUSM+ are the only schemes whose energy flux between sides of the same total enthalpy is always the mass flux times that enthalpy. -/
theorem C111_schemes (sch : Scheme) : (∀ (G : Gas) (ul ur : St) (n : V2) (H : ℝ), 4 ≤ 3 * G.g → n 0 * n 0 + n 1 * n 1 = 1 → Adm G ul → Adm G ur → enthalpy G ul = H → enthalpy G ur = H →
    sch.flux G ul ur n 3 = H * sch.flux G ul ur n 0) ↔ sch = .ausm ∨ sch = .ausmPlus := by
  constructor
  · intro h
    have h := h air thin thick ![1, 0] (5 / 2) (by norm_num [air]) (by simp) thin_adm thick_adm thin_H thick_H
    obtain ⟨rR, rv, rc⟩ := thin_thick_roe ![1, 0]
    have rn : (roeOf air thin thick ![1, 0]).vn = 0 := by
      show dot (roeOf air thin thick ![1, 0]).v ![1, 0] = 0
      rw [rv]; simp [dot]
    have hsl : slOf air thin thick ![1, 0] = -1 := by
      unfold slOf waveL
      rw [thin_vn, rn, rc, thin_c]; norm_num
    have hsr : srOf air thin thick ![1, 0] = 1 := by
      unfold srOf waveR
      rw [thick_vn, rn, rc, thick_c]; norm_num
    cases sch with
    | ausm => exact Or.inl rfl
    | ausmPlus => exact Or.inr rfl
    | llf =>
      simp only [Scheme.flux] at h
      rw [C111_llf thin_adm thick_adm thin_H thick_H, thin_p, thick_p, thin_vn, thick_vn, thin_c, thick_c] at h
      norm_num [llfEig] at h
    | vanLeer =>
      simp only [Scheme.flux] at h
      rw [C111_vanLeer thin_adm thick_adm thin_H thick_H (by rw [thin_vn, thin_c]; simp) (by rw [thick_vn, thick_c]; simp), thin_vn, thick_vn, thin_c, thick_c] at h
      norm_num [thin, thick, carried, air] at h
    | hll =>
      simp only [Scheme.flux] at h
      rw [C111_hll thin_adm thick_adm thin_H thick_H, thin_p, thick_p, hsl, hsr] at h
      norm_num [hllT3] at h
    | hllc =>
      simp only [Scheme.flux] at h
      have hsm : smOf air thin thick ![1, 0] = -(3 / 7) := by
        unfold smOf contact
        rw [hsl, hsr, thin_vn, thick_vn, thin_p, thick_p]
        norm_num [thin, thick, carried]
      rw [C111_hllc thin_adm thick_adm thin_H thick_H (by norm_num [air]), hsl, hsr, hsm, thin_vn, thick_vn] at h
      norm_num [thick, carried] at h
    | roe =>
      simp only [Scheme.flux, roe] at h
      rw [thin_vn, thick_vn, thin_p, thick_p, show Gas.vel thin = ![0, 0] from carried_vel one_ne_zero, show Gas.vel thick = ![0, 0] from carried_vel four_ne_zero] at h
      have hH : (roeOf air thin thick ![1, 0]).H = 5 / 2 := by
        show ((roeOf air thin thick ![1, 0]).R * air.varsH thick + air.varsH thin) / ((roeOf air thin thick ![1, 0]).R + 1) = _
        rw [← enthalpy_eq thin_adm, ← enthalpy_eq thick_adm, thin_H, thick_H, rR]; norm_num
      have hm : (roeOf air thin thick ![1, 0]).vm2 = 0 := by
        show dot (roeOf air thin thick ![1, 0]).v (roeOf air thin thick ![1, 0]).v = 0
        rw [rv]; simp [dot]
      generalize roeOf air thin thick ![1, 0] = x at *
      simp [roeADU, roeLA, roeL, roeL0, harten, fixeps, rn, rc, rv, hH, hm, Gas.dirFlux, thin, thick, carried] at h
      norm_num at h
  · intro hs G ul ur n H _ _ hl hr h1 h2
    have := C111_upwind (n := n) hl hr hs
    rw [this, h1, h2]
    split_ifs <;> ring

end Flux
end FVENS
