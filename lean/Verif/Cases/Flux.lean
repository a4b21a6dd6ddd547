import Verif.Flux.Carried
import Verif.Flux.Enthalpy
import Verif.Flux.ChartJac
import Verif.Flux.Jac
import Verif.Flux.JacAvg
import Verif.Flux.JacHllc
import Verif.Flux.Mirror
import Verif.Flux.Order
import Verif.Flux.Reflect
import Verif.Flux.Rot
import Verif.Flux.Shock
import Verif.Flux.Upwind
import Verif.Cases.Bc

/-!
Concrete cases of the theorems on the numerical fluxes (`Flux/*`): every theorem with hypotheses is applied to
different states of air. `uA`, `uB` are subsonic, `uS4`, `uS5` supersonic, `uC1`, `uC4` are the sides of a contact,
`shockA`, `shockB` of a shock.
-/

namespace FVENS.Cases

open FVENS Flux

theorem n35 : (![3/5, 4/5] : V2) 0 * (![3/5, 4/5] : V2) 0 + (![3/5, 4/5] : V2) 1 * (![3/5, 4/5] : V2) 1 = 1 := by norm_num
theorem n10 : (![1, 0] : V2) 0 * (![1, 0] : V2) 0 + (![1, 0] : V2) 1 * (![1, 0] : V2) 1 = 1 := by norm_num
theorem cs35 : (3/5 : ℝ) * (3/5) + 4/5 * (4/5) = 1 := by norm_num
theorem g43 : 4 ≤ 3 * air.g := by norm_num [air]

/-! ## C09: an oblique wall -/

example := C09_slip_wall_flux air uEx _ n35 adm_uEx
example := C09_llf n35 adm_uEx
example := C09_vanLeer n35 adm_uEx
example := C09_ausm n35 adm_uEx
example := C09_ausmPlus n35 adm_uEx
example := C09_roe n35 adm_uEx
example := C09_hll n35 adm_uEx
example := C09_hllc n35 adm_uEx

/-! ## C15 -/

example := C15_consistency air uEx ![3/5, 4/5] adm_uEx
example := C15_vanLeer adm_uEx ![3/5, 4/5]
example := C15_ausm adm_uEx ![3/5, 4/5]
example := C15_roe adm_uEx ![3/5, 4/5]
example := C15_hll adm_uEx ![3/5, 4/5]
example := C15_hllc adm_uEx ![3/5, 4/5]

/-! ## C16 -/

example := C16_llf adm_uA adm_uB ![3/5, 4/5]
example := C16_roe adm_uA adm_uB ![3/5, 4/5]
example := C16_hll adm_uA adm_uB ![3/5, 4/5]
example := C16_hllc g43 adm_uA adm_uB n35

/-! ## C17 -/

theorem mach4 : 1 < Gas.varsVn uS4 ![1, 0] / cSide air uS4 := by rw [vn_uS4, c_uS4]; norm_num
theorem mach5 : 1 < Gas.varsVn uS5 ![1, 0] / cSide air uS5 := by rw [vn_uS5, c_uS5]; norm_num
theorem sl45 : 0 < slOf air uS4 uS5 ![1, 0] := by
  obtain ⟨h1, h2⟩ := roe_uS
  rw [sl_pos_iff, vn_uS4, c_uS4, h1]; constructor
  · norm_num
  · linarith

example := C17_vanLeer adm_uS4 adm_uS5 ![1, 0] mach4 mach5
example := C17_ausm adm_uS4 adm_uS5 ![1, 0] mach4 mach5
example : ausmPlus air uS4 uS5 ![1, 0] = air.eulerFlux uS4 ![1, 0] := by
  refine C17_ausmPlus adm_uS4 adm_uS5 ![1, 0] ?_ ?_
  · rw [vn_uS4, c_uS4, critC, Real.sqrt_lt' (by norm_num)]; simp [dot, Gas.vel, air, uS4]; norm_num
  · rw [vn_uS5, c_uS5, critC, Real.sqrt_lt' (by norm_num)]; simp [dot, Gas.vel, air, uS5]; norm_num
example := C17_hll adm_uS4 adm_uS5 ![1, 0] sl45
example := C17_hllc adm_uS4 ![1, 0] sl45
example : roe air uS4 uS5 ![1, 0] = air.eulerFlux uS4 ![1, 0] := by
  obtain ⟨h1, h2⟩ := roe_uS
  exact C17_roe adm_uS4 adm_uS5 ![1, 0] (by rw [h1]; norm_num [fixeps]; linarith)

/-! ## C18 -/

example := C18_llf_frozen (G := air) adm_uA.rho' adm_uB.rho' ![3/5, 4/5]
example := C18_hll_frozen (G := air) adm_uA.rho' adm_uB.rho' ![3/5, 4/5]
example := C18_roe_averages_left adm_uA adm_uB ![3/5, 4/5]
example := C18_roe_averages_right adm_uA adm_uB ![3/5, 4/5]
example := C18_ausm_sum adm_uA ![3/5, 4/5]
example := C18_hllc_sum adm_uA ![3/5, 4/5]

theorem ausm45 : ausmML (Gas.varsVn uS4 ![1, 0] / cSide air uS4) + ausmMR (Gas.varsVn uS5 ![1, 0] / cSide air uS5) ≠ 0 := by
  rw [vn_uS4, vn_uS5, c_uS4, c_uS5]
  norm_num [ausmML, ausmMR, abs_of_pos]

example := C18_ausm_exact adm_uS4 adm_uS5 ![1, 0] ausm45

/-- the left state is faster, and its density is 1 -/
theorem llf2_case : ∃ ul ur, Adm air ul ∧ Adm air ur ∧ ul ≠ ur ∧ Gas.varsVn ul ![1, 0] ≠ 0 ∧ ul 0 = 1 ∧
    |Gas.varsVn ur ![1, 0]| + cSide air ur < |Gas.varsVn ul ![1, 0]| + cSide air ul := by
  have hp : air.varsP (![1, 9, 0, 81/2 + 5/2 * (5/7)] : St) = 5/7 := by
    simp [Gas.varsP, Gas.vel, dot, air]; norm_num
  refine ⟨![1, 9, 0, 81/2 + 5/2 * (5/7)], uS4, ⟨by norm_num [air], by norm_num, ?_⟩, adm_uS4, ?_, ?_, by norm_num, ?_⟩
  · rw [← varsP_eq (by norm_num), hp]; norm_num
  · intro h; have := congrFun h 0; norm_num [uS4] at this
  · norm_num [Gas.varsVn, Gas.vel, dot]
  · rw [vn_uS4, c_uS4, cSide, hp]
    norm_num [Gas.varsVn, Gas.vel, dot, Gas.soundSpeed, air, abs_of_pos]

example : ∃ ul ur, ul ≠ ur ∧ IsFluxJac (fun a b => llf air a b ![1, 0]) (llfJac2 air ul ur ![1, 0]) ul ur ∧
    ∀ i k : Fin 4, (llfDe air ul ![1, 0] k - eigRow air ul ![1, 0] k) * (ur i - ul i) = 0 := by
  obtain ⟨ul, ur, hl, hr, hne, hv, h1, hs⟩ := llf2_case
  have := C18_llf2_partial hl hr ![1, 0] hv hs h1
  exact ⟨ul, ur, hne, this, (C18_llf2_exact_iff hl hr ![1, 0] hv hs).1 this⟩

example : IsFluxJac (fun a b => roe air a b ![1, 0]) (roeJac air uS4 uS5 ![1, 0]) uS4 uS5 := by
  refine C18_roe_exact_partial adm_uS4 adm_uS5 ![1, 0] ?_
  obtain ⟨h1, h2⟩ := roe_uS
  have hc := roe_c_pos (n := ![1, 0]) adm_uS4 adm_uS5
  have hx : fixeps * (roeOf air uS4 uS5 ![1, 0]).c < 1 := by rw [fixeps]; linarith
  intro i
  fin_cases i
  · exact lt_of_lt_of_le (by rw [h1]; linarith : _ < (roeOf air uS4 uS5 ![1, 0]).vn - _) (le_abs_self _)
  · exact lt_of_lt_of_le (by rw [h1]; linarith : _ < (roeOf air uS4 uS5 ![1, 0]).vn) (le_abs_self _)
  · exact lt_of_lt_of_le (by rw [h1]; linarith : _ < (roeOf air uS4 uS5 ![1, 0]).vn) (le_abs_self _)
  · exact lt_of_lt_of_le (by rw [h1]; linarith : _ < (roeOf air uS4 uS5 ![1, 0]).vn + _) (le_abs_self _)

/-- at a stationary contact the entropy fix acts on the second eigenvalue -/
theorem fixedC : Fixed (roeOf air uC1 uC4 ![1, 0]) 1 := by
  have hc : 0 < (roeOf air uC1 uC4 ![1, 0]).c := roe_c_pos adm_uC1 adm_uC4
  have hvn : (roeOf air uC1 uC4 ![1, 0]).vn = 0 := by simp [roeOf, roeAvg, uC1, uC4, dot, Gas.vel]
  show |(roeOf air uC1 uC4 ![1, 0]).vn| < _
  rw [hvn, abs_zero]
  exact mul_pos (by norm_num [fixeps]) hc

example := C18_roe_fix_error (C18_roe_averages_left adm_uC1 adm_uC4 ![1, 0]) (roe_c_pos adm_uC1 adm_uC4) fixedC
example := C18_roe_fix_iff (C18_roe_averages_left adm_uC1 adm_uC4 ![1, 0]) (roe_c_pos adm_uC1 adm_uC4) fixedC

/-- subsonic, with the left star state in use -/
theorem hllc_case : Adm air uH0 ∧ Adm air uH1 ∧ NoTie air uH0 uH1 ![1, 0] ∧
    slOf air uH0 uH1 ![1, 0] < 0 ∧ 0 < smOf air uH0 uH1 ![1, 0] := by
  have a0 : Adm air uH0 := ⟨by norm_num [air], by norm_num [uH0], by
    simp [Gas.pressure, Gas.pressureOfInternal, air, uH0, dot, mom]; norm_num⟩
  have a1 : Adm air uH1 := ⟨by norm_num [air], by norm_num [uH1], by
    simp [Gas.pressure, Gas.pressureOfInternal, air, uH1, dot, mom]; norm_num⟩
  have p0 : air.varsP uH0 = 1 := by simp [Gas.varsP, Gas.vel, dot, air, uH0]; norm_num
  have p1 : air.varsP uH1 = 1 := by simp [Gas.varsP, Gas.vel, dot, air, uH1]; norm_num
  have c0 : cSide air uH0 = 1 := by rw [cSide, p0]; simp [Gas.soundSpeed, air, uH0]
  have c1 : cSide air uH1 = 1 := by rw [cSide, p1]; simp [Gas.soundSpeed, air, uH1]
  have v0 : Gas.varsVn uH0 ![1, 0] = 0 := by simp [Gas.varsVn, Gas.vel, dot, uH0]
  have v1 : Gas.varsVn uH1 ![1, 0] = 1 / 2 := by simp [Gas.varsVn, Gas.vel, dot, uH1]; norm_num
  have hR : (roeOf air uH0 uH1 ![1, 0]).R = 1 := by simp [roeOf, roeAvg, uH0, uH1]
  have hvn : (roeOf air uH0 uH1 ![1, 0]).vn = 1 / 4 := by rw [roe_vn, hR, v0, v1]; norm_num
  have hcp := roe_c_pos (n := ![1, 0]) a0 a1
  have hc : (roeOf air uH0 uH1 ![1, 0]).c < 5 / 4 := by
    have h1 := roe_c_sq (n := ![1, 0]) a0 a1
    have h2 := roe_c_sq_arg (n := ![1, 0]) a0 a1
    simp only at h2
    rw [h2, hR, c0, c1] at h1
    by_contra hcon
    have h3 : (5/4 : ℝ) * (5/4) ≤ (roeOf air uH0 uH1 ![1, 0]).c * (roeOf air uH0 uH1 ![1, 0]).c :=
      mul_self_le_mul_self (by norm_num) (not_lt.mp hcon)
    rw [h1] at h3
    simp [Gas.vel, uH0, uH1, air] at h3
    norm_num at h3
  have hsl : slOf air uH0 uH1 ![1, 0] = -1 := by
    simp only [slOf, waveL, v0, c0, hvn]
    rw [if_neg (by linarith)]; norm_num
  have hsr : srOf air uH0 uH1 ![1, 0] = 3 / 2 := by
    simp only [srOf, waveR, v1, c1, hvn]
    rw [if_neg (by linarith)]; norm_num
  have hsm : smOf air uH0 uH1 ![1, 0] = 1 / 4 := by
    simp only [smOf, contact, v0, v1, p0, p1, hsl, hsr]
    norm_num [uH0, uH1]
  refine ⟨a0, a1, ⟨?_, ?_, ?_, ?_, ?_⟩, ?_, ?_⟩
  · rw [v0, c0, hvn]; intro h; linarith
  · rw [v1, c1, hvn]; intro h; linarith
  · rw [hsl]; norm_num
  · rw [hsm]; norm_num
  · rw [hsr]; norm_num
  · rw [hsl]; norm_num
  · rw [hsm]; norm_num

example := C18_hllc_exact hllc_case.1 hllc_case.2.1 ![1, 0] hllc_case.2.2.1

/-! ## C19: a turn by the angle with cosine 3/5 -/

example := C19_llf (G := air) (n := ![1, 0]) adm_uA.rho' adm_uB.rho' cs35
example := C19_vanLeer (G := air) (ul := uA) (ur := uB) (n := ![1, 0]) cs35
example := C19_ausm (G := air) (ul := uA) (ur := uB) (n := ![1, 0]) cs35
example := C19_ausmPlus (G := air) (ul := uA) (ur := uB) (n := ![1, 0]) cs35
example := C19_roe (G := air) (ul := uA) (ur := uB) (n := ![1, 0]) cs35
example := C19_hll (G := air) (ul := uA) (ur := uB) (n := ![1, 0]) cs35
example := C19_hllc (G := air) (ul := uA) (ur := uB) (n := ![1, 0]) cs35
example := C19_rotation air uA uB ![1, 0] adm_uA.rho' adm_uB.rho' _ _ cs35

/-! ## C20: densities 1 and 4, tangential speeds 2 and -1 -/

example := C20_ausm contact_uC
example := C20_ausmPlus contact_uC
example := C20_hllc adm_uC1 adm_uC4 contact_uC
example := C20_contact_preserved adm_uC1 adm_uC4 contact_uC .hllc (by simp)
example := C20_roe_diffuses_contact adm_uC1 adm_uC4 contact_uC

/-! ## C21 -/

example := C21_wave_order g43 adm_uA adm_uB ![3/5, 4/5]
example := C21_star_density_pos g43 adm_uA adm_uB ![3/5, 4/5]
example := C21_star_pressure adm_uA adm_uB ![3/5, 4/5]
example := C21_rankine_hugoniot (p := 3) (ss := 5) (sm := 2) adm_uEx.rho' n35 rfl (by norm_num)
  (by simp [Gas.varsVn, Gas.vel, dot, uEx]; norm_num)

/-! ## C83 -/

example := C83_ausm_partial adm_uS4 adm_uS5 ![1, 0] ausm45
example := C83_hll adm_uA adm_uB ![3/5, 4/5]
example := C83_hllc_partial g43 hllc_case.1 hllc_case.2.1 ![1, 0] n10 hllc_case.2.2.1

/-! ## C100 -/

example := C100_reflection air uA uB ![1, 0] _ _ cs35
/-- the vertical axis mirrors the normal `(1, 0)` -/
example := BC.C100_slip_ghost ⟨-1, 0, ![0, 0], by norm_num⟩ air (u := uEx) adm_uEx.rho' (n := ![1, 0]) (by simp [dot])
  (by funext d; fin_cases d <;> simp [Reflection.dir, refV])

/-! ## C104: mirrored axes turned by the angle with cosine 3/5, other units of mass and time -/

/-- a change of axes and units -/
noncomputable def chart : Chart := ⟨3 / 5, 4 / 5, -1, 2, 3, by norm_num, by norm_num, by norm_num, by norm_num⟩

example := chart.C104_llf (G := air) (G' := air) rfl adm_uA adm_uB ![1, 0]
example := chart.C104_hll (G := air) (G' := air) rfl adm_uA adm_uB ![1, 0]
example := chart.C104_ausm (G := air) (G' := air) rfl adm_uA adm_uB ![1, 0]

/-! ## C109 -/

example := C109_llf (shock_jump 1)
example := C109_vanLeer (shock_jump 1) (shock_supersonic 1)
example := C109_ausm (shock_jump 1) (shock_supersonic 1)
example := C109_roe (shock_jump 1)
example := (C109_hll (shock_jump 1)).2 (shock_supersonic 1)
example := C109_others .roe (by simp)

theorem shock_forward : Forward air (shockA 1) (shockB 1) ![1, 0] :=
  ⟨fun _ => by rw [shockA_p, shockB_p]; norm_num, fun h => absurd (shock_jump 1).pos (not_lt.2 h.le)⟩

example : hll air (shockA 1) (shockB 1) ![1, 0] = air.eulerFlux (shockA 1) ![1, 0] :=
  (C109_hll_exact (shockA_adm 1) (shockB_adm 1) n10 (shock_jump 1).flux (Or.inr (shock_jump 1).pos.ne')).2 shock_forward
example : hllc air (shockA 1) (shockB 1) ![1, 0] = air.eulerFlux (shockA 1) ![1, 0] :=
  (C109_hllc_exact g43 (shockA_adm 1) (shockB_adm 1) n10 (shock_jump 1).flux).2 shock_forward

/-! ## C110: densities 1 and 4 in an oblique stream -/

example := C110_llf (G := air) (w := ![1/4, 1/3]) (n := ![3/5, 4/5]) (p := 5/7) (a := 1) (b := 4) g1' one_pos (by norm_num)
example := C110_hll (G := air) (w := ![1/4, 1/3]) (n := ![3/5, 4/5]) (p := 5/7) (a := 1) (b := 4) g1' one_pos (by norm_num)
example := C110_hllc (G := air) (w := ![1/4, 1/3]) (n := ![3/5, 4/5]) (p := 5/7) (a := 1) (b := 4) g1' one_pos (by norm_num) (by norm_num)
example := C110_ausmPlus (G := air) (w := ![1/4, 1/3]) (n := ![3/5, 4/5]) (p := 5/7) (a := 1) (b := 4) g1' one_pos (by norm_num) (by norm_num)
example := C110_roe (G := air) (w := ![1/4, 1/3]) (n := ![3/5, 4/5]) (p := 5/7) (a := 1) (b := 4) g1' one_pos (by norm_num) (by norm_num)
example := C110_mass (G := air) (w := ![1/4, 1/3]) (n := ![3/5, 4/5]) (p := 5/7) (a := 1) (b := 4) g1' one_pos (by norm_num) (by norm_num)
  .roe (by decide) (by decide)

/-! ## C111: twice the density and pressure at the same velocity have the same total enthalpy -/

/-- `uA` with twice the density -/
noncomputable def uA2 : St := ![2, 1, 0, 107/28]

theorem adm_uA2 : Adm air uA2 := ⟨by norm_num [air], by norm_num [uA2], by
  simp [Gas.pressure, Gas.pressureOfInternal, air, uA2, dot, mom]; norm_num⟩
theorem H_uA : enthalpy air uA = 21 / 8 := by rw [enthalpy, uA_p]; simp [uA]; norm_num
theorem H_uA2 : enthalpy air uA2 = 21 / 8 := by
  simp [enthalpy, Gas.pressure, Gas.pressureOfInternal, air, uA2, dot, mom]; norm_num
theorem c_uA : cSide air uA = 1 := by rw [cSide, varsP_eq adm_uA.rho']; exact uA_c
theorem c_uA2 : cSide air uA2 = 1 := by
  simp [cSide, Gas.varsP, Gas.soundSpeed, Gas.vel, air, uA2, dot]; norm_num

example := C111_llf (n := ![3/5, 4/5]) adm_uA adm_uA2 H_uA H_uA2
example := C111_hll (n := ![3/5, 4/5]) adm_uA adm_uA2 H_uA H_uA2
example := C111_hllc (n := ![3/5, 4/5]) adm_uA adm_uA2 H_uA H_uA2 g43
example := C111_vanLeer (n := ![1, 0]) adm_uA adm_uA2 H_uA H_uA2
  (by rw [c_uA]; norm_num [Gas.varsVn, Gas.vel, dot, uA, abs_le]) (by rw [c_uA2]; norm_num [Gas.varsVn, Gas.vel, dot, uA2, abs_le])
example := C111_upwind (n := ![3/5, 4/5]) adm_uA adm_uB (sch := .ausmPlus) (by simp)

end FVENS.Cases
