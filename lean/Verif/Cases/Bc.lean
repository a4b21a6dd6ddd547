import Verif.BC.Props
import Verif.Flux.Upwind
import Verif.Cases.Phys

/-!
Concrete cases of the theorems on boundary conditions (`BC/Props`).
-/

namespace FVENS.Cases

open FVENS BC Flux

theorem unit35 : IsUnit2 ![3/5, 4/5] := by simp [IsUnit2, dot]; norm_num
theorem unit10 : IsUnit2 ![1, 0] := by simp [IsUnit2, dot]
theorem g1' : 1 < air.g := by norm_num [air]
theorem Mp : 0 < air.Minf := by norm_num [air]

/-! ## C08: a moving state at an oblique wall -/

example := C08_slip_mirror air uEx ![3/5, 4/5] unit35 r0
example : slip (slip uEx ![3/5, 4/5]) ![3/5, 4/5] = uEx := C08_slip_involution uEx _ unit35 r0

/-! ## C10: `uA` leaves at Mach number 1/2 -/

theorem uA_p : air.pressure uA = 5 / 7 := by
  simp [Gas.pressure, Gas.pressureOfInternal, air, dot, mom, uA]; norm_num
theorem uA_c : air.soundSpeedC uA = 1 := by
  simp only [Gas.soundSpeedC, Gas.soundSpeed, uA_p]; simp [air, uA]
theorem uA_mach : machN air uA ![1, 0] = 1 / 2 := by
  simp only [machN, uA_c]; simp [dot, mom, uA]

example (aoa : ℝ) := C10_inOut air aoa uA ![1, 0] g1' Mp (by norm_num [uA]) (by rw [uA_p]; norm_num)
  (by rw [uA_mach]; norm_num) (by rw [uA_mach]; norm_num)
/-- a state that leaves with the speed of sound -/
example (aoa : ℝ) : (inOutJ air (air.freestream aoa) ![1, 1, 0, 16/7] ![1, 0]).gs ≠ inOut air (air.freestream aoa) ![1, 1, 0, 16/7] ![1, 0] := by
  have hp : air.pressure ![1, 1, 0, 16/7] = 5/7 := by
    simp [Gas.pressure, Gas.pressureOfInternal, air, dot, mom]; norm_num
  refine C10_inOut_sonic_refuted air aoa _ ![1, 0] g1' Mp (by norm_num) ?_ ?_
  · simp [machN, Gas.soundSpeedC, Gas.soundSpeed, hp]
    simp [dot, mom, air]
  · rw [hp]; simp [Gas.freestreamPressure, air]; norm_num
example := C10_isothermal_partial air 1 2 uEx ![3/5, 4/5] r0 1 (by decide)

/-! ## C11: a wall sliding with speed 1 -/

example := C11_adiabatic_velocity 1 uEx ![3/5, 4/5] r0
example := C11_isothermal air 1 2 uEx ![3/5, 4/5] r0 g1' M0
/-- the fluid already moves with the wall: the temperature is kept -/
example : air.temperatureC (adiabatic 1 ![2, 2, 2, 10] ![0, 1]) = air.temperatureC ![2, 2, 2, 10] :=
  (C11_adiabatic_temperature_iff air 1 _ _ (by simp [IsUnit2, dot]) (by norm_num) g1' M0).2 (Or.inr (by simp [Gas.vel, dot]))
/-- it does not: the temperature is not kept -/
example : air.temperatureC (adiabatic 1 uEx ![0, 1]) ≠ air.temperatureC uEx := by
  rw [ne_eq, C11_adiabatic_temperature_iff air 1 _ _ (by simp [IsUnit2, dot]) r0 g1' M0]
  simp [Gas.vel, dot, uEx]

/-! ## C12 -/

example (aoa : ℝ) := C12_freestream_reproduced air aoa ![3/5, 4/5] g1' Mp
example : inOut air uEx uA ![-1, 0] = uEx := C12_inflow air uEx uA ![-1, 0] (by norm_num [uA]) (by simp [dot, mom, uA])
example := C12_subsonic_outflow air uEx uA ![1, 0] g1' (by norm_num [uA]) (by rw [uA_p]; norm_num) (by norm_num [dot, mom, uA])
  (by rw [uA_c]; norm_num [dot, mom, uA])
example : inOut air uEx uS4 ![1, 0] = uS4 := C12_supersonic_outflow air uEx uS4 ![1, 0] gp adm_uS4.rho adm_uS4.p (by
  have : air.soundSpeedC uS4 = cSide air uS4 := by
    rw [cSide, varsP_eq adm_uS4.rho.ne']; rfl
  rw [this, c_uS4]; norm_num [dot, mom, uS4])

/-! ## C13: `uInfl` enters with Mach number 1/3 -/

example : totalT air (inflow air 2 (207/10) uInfl ![1, 0]) = 207/10 :=
  (C13_total_temperature_partial air 2 _ uInfl ![1, 0] unit10 g1' Mp two_pos (by norm_num) (by rw [uInfl_co2]; norm_num)
    (by rw [uInfl_cg]; norm_num) (by rw [uInfl_cg, uInfl_co2]; norm_num)).2 (Or.inl (by rw [uInfl_co2]; norm_num [air]))
example : 0 ≤ dot (mom (inflow air 1 1 uInfl ![1, 0])) ![1, 0] := by
  refine C13_ghost_never_inflow air 1 1 uInfl ![1, 0] unit10 ?_
  simp only [inflow, uInfl_cg, uInfl_co2, Gas.densityOfPT, Matrix.cons_val_zero]
  have : (0:ℝ) < (1 * 5 * 5 / (414 / 5) / 1) ^ (air.g / (air.g - 1)) := Real.rpow_pos_of_pos (by norm_num) _
  have := gp
  have := Mp
  positivity

/-! ## C14 -/

/-- a slip wall, a moving adiabatic wall and a far field -/
def three : List Config := [⟨2, .slipWall, []⟩, ⟨4, .adiabaticWall, [1]⟩, ⟨7, .farfield, []⟩]

theorem three_ok : ∀ c ∈ three, Supported c := by
  intro c hc; simp [three] at hc; rcases hc with rfl | rfl | rfl <;> simp [Supported]

example (uinf : St) : ∃ m, createFlowBCs uinf three = .ok m ∧ m 4 = specObj uinf ⟨4, .adiabaticWall, [1]⟩ ∧ m 5 = none := by
  obtain ⟨m, hm⟩ := (C14_succeeds_iff uinf three).2 three_ok
  refine ⟨m, hm, C14_binding_distinct uinf three m (by decide) hm ⟨4, .adiabaticWall, [1]⟩ (by simp [three]), ?_⟩
  rw [C14_binding uinf three m hm]; rfl
example (uinf : St) : createFlowBCs uinf (three ++ [⟨9, .periodic, [1]⟩]) = .throws :=
  C14_periodic_throws uinf three [] _ three_ok rfl

end FVENS.Cases
