import Verif.BC.Model
import Verif.Phys.Props

/-!
# Properties C08, C10 - C14: boundary conditions
-/

namespace FVENS
namespace BC

/-- Unit vectors. -/
def IsUnit2 (n : V2) : Prop := dot n n = 1

/-! ## C08: slip wall -/

/-- C08: the ghost has the interior density, energy, speed and pressure; its normal velocity is
opposite and its tangential velocity equal. -/
theorem C08_slip_mirror (G : Gas) (u : St) (n : V2) (hn : IsUnit2 n) (hr : u 0 ≠ 0) :
    slip u n 0 = u 0 ∧ slip u n 3 = u 3 ∧
    dot (mom (slip u n)) n = - dot (mom u) n ∧
    dot (mom (slip u n)) ![-n 1, n 0] = dot (mom u) ![-n 1, n 0] ∧
    dot (mom (slip u n)) (mom (slip u n)) = dot (mom u) (mom u) ∧
    G.pressure (slip u n) = G.pressure u := by
  have hn' : n 1 * n 1 = 1 - n 0 * n 0 := by simp [IsUnit2, dot] at hn; linarith
  have hm : dot (mom (slip u n)) (mom (slip u n)) = dot (mom u) (mom u) := by
    simp [slip, dot, mom]; field_simp; ring_nf
    have : n 1 ^ 2 = 1 - n 0 ^ 2 := by nlinarith
    have h4 : n 1 ^ 4 = (1 - n 0 ^ 2) ^ 2 := by rw [← this]; ring
    have h3 : n 1 ^ 3 = n 1 * (1 - n 0 ^ 2) := by rw [← this]; ring
    simp only [h4, h3, this]; ring
  refine ⟨by simp [slip], by simp [slip], ?_, ?_, hm, ?_⟩
  · simp [slip, dot, mom]; field_simp
    linear_combination (-2 * (u 1 * n 0 + u 2 * n 1)) * hn'
  · simp [slip, dot, mom]; field_simp; ring
  · simp only [Gas.pressure, hm]; simp [slip]

/-- C08: the ghost of the ghost is the interior state. -/
theorem C08_slip_involution (u : St) (n : V2) (hn : IsUnit2 n) (hr : u 0 ≠ 0) :
    slip (slip u n) n = u := by
  have hn' : n 1 * n 1 = 1 - n 0 * n 0 := by simp [IsUnit2, dot] at hn; linarith
  funext i
  fin_cases i
  · simp [slip]
  · simp [slip, dot, mom]; field_simp
    linear_combination (4 * n 0 * (u 1 * n 0 + u 2 * n 1)) * hn'
  · simp [slip, dot, mom]; field_simp
    linear_combination (4 * n 1 * (u 1 * n 0 + u 2 * n 1)) * hn'
  · simp [slip]

example : IsUnit2 ![3/5, 4/5] ∧ slip uEx ![3/5, 4/5] = ![2, -13/5, -9/5, 10] := by
  refine ⟨by simp [IsUnit2, dot]; norm_num, ?_⟩
  funext i; fin_cases i <;> simp [slip, uEx, dot, mom] <;> norm_num

/-! ## C10: Jacobians of ghost states -/

/-- Specification: `j` is the ghost state and the derivative of the ghost-state function `f`. -/
def IsGhostJac (f : St → St) (j : GJ) (u : St) : Prop :=
  j.gs = f u ∧ ∀ i, HasGrad (fun v => f v i) (j.dgs i) u

theorem idJac_hasGrad (u : St) (i : Fin 4) : HasGrad (fun v : St => v i) (idJac i) u :=
  HasGrad.coord i

/-- C10, far field. -/
theorem C10_farfield (uinf u : St) (n : V2) :
    IsGhostJac (fun v => farfield uinf v n) (farfieldJ uinf u n) u :=
  ⟨rfl, fun i => HasGrad.const (uinf i)⟩

/-- C10, extrapolation. -/
theorem C10_extrapolation (u : St) (n : V2) :
    IsGhostJac (fun v => extrapolation v n) (extrapolationJ u n) u :=
  ⟨rfl, idJac_hasGrad u⟩

/-- C10, slip wall. -/
theorem C10_slip (u : St) (n : V2) (hr : u 0 ≠ 0) :
    IsGhostJac (fun v => slip v n) (slipJ u n) u := by
  refine ⟨?_, fun i => ?_⟩
  · funext i; fin_cases i <;> simp [slip, slipJ, -mul_eq_mul_right_iff, -mul_eq_mul_left_iff] <;> ring
  · have hvn := hasGrad_vn u n hr
    fin_cases i
    · refine (HasGrad.coord 0 (u := u)).congr ?_
      funext k; fin_cases k <;> simp [slipJ]
    · refine ((HasGrad.coord 1).sub (((hvn.cmul 2).mul (HasGrad.const (n 0))).mul
        (HasGrad.coord 0))).congr ?_
      funext k; fin_cases k <;> simp [slipJ, Gas.dVnRow, -mul_eq_mul_right_iff, -mul_eq_mul_left_iff] <;> ring
    · refine ((HasGrad.coord 2).sub (((hvn.cmul 2).mul (HasGrad.const (n 1))).mul
        (HasGrad.coord 0))).congr ?_
      funext k; fin_cases k <;> simp [slipJ, Gas.dVnRow, -mul_eq_mul_right_iff, -mul_eq_mul_left_iff] <;> ring
    · refine (HasGrad.coord 3 (u := u)).congr ?_
      funext k; fin_cases k <;> simp [slipJ]

/-- C10, adiabatic wall. -/
theorem C10_adiabatic (tv : ℝ) (u : St) (n : V2) :
    IsGhostJac (fun v => adiabatic tv v n) (adiabaticJ tv u n) u := by
  refine ⟨rfl, fun i => ?_⟩
  fin_cases i
  · refine (HasGrad.coord 0 (u := u)).congr ?_
    funext k; fin_cases k <;> simp [adiabaticJ]
  · have h : HasGrad (fun v => 2 * (tv * v 0) * n 1 - v 1) _ u :=
      ((((HasGrad.coord 0).cmul tv).cmul 2).mul (HasGrad.const (n 1))).sub (HasGrad.coord 1)
    refine h.congr ?_
    funext k; fin_cases k <;> simp [adiabaticJ]
  · have h : HasGrad (fun v => -2 * (tv * v 0) * n 0 - v 2) _ u :=
      ((((HasGrad.coord 0).cmul tv).cmul (-2)).mul (HasGrad.const (n 0))).sub (HasGrad.coord 2)
    refine h.congr ?_
    funext k; fin_cases k <;> simp [adiabaticJ]
  · refine (HasGrad.coord 3 (u := u)).congr ?_
    funext k; fin_cases k <;> simp [adiabaticJ]

theorem machN_continuousAt (G : Gas) (u : St) (n : V2) (hg : 0 < G.g) (hr : 0 < u 0)
    (hp : 0 < G.pressure u) : ContinuousAt (fun v => machN G v n) u :=
  (show HasFDerivAt _ _ u from C03_machNormal G u n hg hr hp).continuousAt

/-- C10, in/outflow away from the sonic and zero-velocity switches (inflow, subsonic outflow,
supersonic outflow). -/
theorem C10_inOut (G : Gas) (aoa : ℝ) (u : St) (n : V2) (hg : 1 < G.g) (hM : 0 < G.Minf)
    (hr : 0 < u 0) (hp : 0 < G.pressure u) (h0 : machN G u n ≠ 0) (h1 : machN G u n ≠ 1) :
    IsGhostJac (fun v => inOut G (G.freestream aoa) v n) (inOutJ G (G.freestream aoa) u n) u := by
  have hc := machN_continuousAt G u n (by linarith) hr hp
  have hpinf : G.pressure (G.freestream aoa) = G.freestreamPressure := by
    rw [(C06_freestream G hg hM aoa).2.2.2.1, Gas.freestreamPressure]; ring_nf
  rcases lt_or_gt_of_ne h0 with hneg | hpos
  · have ev : ∀ᶠ v in nhds u, machN G v n < 0 := hc.eventually_lt continuousAt_const hneg
    refine ⟨by simp [inOut, inOutJ, hneg.le], fun i => ?_⟩
    have hj : (inOutJ G (G.freestream aoa) u n).dgs i = 0 := by simp [inOutJ, hneg.le]
    rw [hj]
    refine (HasGrad.const (G.freestream aoa i)).congr_of_eventuallyEq ?_
    filter_upwards [ev] with v hv
    simp [inOut, hv.le]
  · have evp : ∀ᶠ v in nhds u, 0 < machN G v n := continuousAt_const.eventually_lt hc hpos
    rcases lt_or_gt_of_ne h1 with hsub | hsup
    · have ev : ∀ᶠ v in nhds u, machN G v n < 1 := hc.eventually_lt continuousAt_const hsub
      have evr : ∀ᶠ v : St in nhds u, v 0 ≠ 0 :=
        (continuous_apply 0).continuousAt.eventually_ne hr.ne'
      refine ⟨?_, fun i => ?_⟩
      · simp [inOut, inOutJ, not_le.mpr hpos, hsub, hsub.le, hpinf]
      · have hj : (inOutJ G (G.freestream aoa) u n).dgs i =
          (![![1, 0, 0, 0], ![0, 1, 0, 0], ![0, 0, 1, 0],
            ![-(1 / 2) * dot (mom u) (mom u) / (u 0 * u 0), u 1 / u 0, u 2 / u 0, 0]] : Fin 4 → St) i := by
          simp [inOutJ, not_le.mpr hpos, hsub.le]
        rw [hj]
        have base : HasGrad (fun v : St => (![v 0, v 1, v 2, G.energyOfP G.freestreamPressure (v 0)
            (dot (mom v) (mom v) / (v 0 * v 0))] : St) i)
            ((![![1, 0, 0, 0], ![0, 1, 0, 0], ![0, 0, 1, 0],
            ![-(1 / 2) * dot (mom u) (mom u) / (u 0 * u 0), u 1 / u 0, u 2 / u 0, 0]] : Fin 4 → St) i) u := by
          fin_cases i
          · refine (HasGrad.coord 0 (u := u)).congr ?_
            funext k; fin_cases k <;> simp
          · refine (HasGrad.coord 1 (u := u)).congr ?_
            funext k; fin_cases k <;> simp
          · refine (HasGrad.coord 2 (u := u)).congr ?_
            funext k; fin_cases k <;> simp
          · have hr' := hr.ne'
            have h := (HasGrad.const (G.freestreamPressure / (G.g - 1))).add
              (((HasGrad.coord 0 (u := u)).cmul (1/2)).mul ((hasGrad_mom2 u).div
                ((HasGrad.coord 0).mul (HasGrad.coord 0)) (mul_ne_zero hr' hr')))
            refine h.congr ?_
            funext k; fin_cases k <;> simp [dot, mom] <;> field_simp <;> ring
        refine base.congr_of_eventuallyEq ?_
        filter_upwards [evp, ev] with v hv1 hv2
        simp [inOut, not_le.mpr hv1, hv2]
    · have ev : ∀ᶠ v in nhds u, 1 < machN G v n := continuousAt_const.eventually_lt hc hsup
      refine ⟨?_, fun i => ?_⟩
      · simp [inOut, inOutJ, not_le.mpr hpos, not_lt.mpr hsup.le, not_le.mpr hsup]
      · have hj : (inOutJ G (G.freestream aoa) u n).dgs i = idJac i := by
          simp [inOutJ, not_le.mpr hpos, not_le.mpr hsup]
        rw [hj]
        refine (idJac_hasGrad u i).congr_of_eventuallyEq ?_
        filter_upwards [evp, ev] with v hv1 hv2
        simp [inOut, not_le.mpr hv1, not_lt.mpr hv2.le]

/-- C10 fails at exactly sonic outflow: the two routines return different ghost states whenever
the interior pressure differs from the free-stream pressure. -/
theorem C10_inOut_sonic_refuted (G : Gas) (aoa : ℝ) (u : St) (n : V2) (hg : 1 < G.g)
    (hM : 0 < G.Minf) (hr : 0 < u 0) (h1 : machN G u n = 1)
    (hp : G.pressure u ≠ G.freestreamPressure) :
    (inOutJ G (G.freestream aoa) u n).gs ≠ inOut G (G.freestream aoa) u n := by
  intro h
  have h3 := congrFun h 3
  have hpinf : G.pressure (G.freestream aoa) = G.freestreamPressure := by
    rw [(C06_freestream G hg hM aoa).2.2.2.1, Gas.freestreamPressure]; ring_nf
  simp [inOut, inOutJ, h1, Gas.energyOfP, hpinf, show ¬ (1:ℝ) ≤ 0 by norm_num] at h3
  apply hp
  have hg1 : G.g - 1 ≠ 0 := by linarith
  have hr' := hr.ne'
  simp only [Gas.pressure, Gas.pressureOfInternal, ← h3]
  field_simp; ring

/-- Concrete sonic state: `ρ = 1, p = 5/7, c = 1, v = (1,0)`, normal `(1,0)`. -/
example : machN air ![1, 1, 0, 16/7] ![1, 0] = 1 ∧
    air.pressure ![1, 1, 0, 16/7] ≠ air.freestreamPressure := by
  have hp : air.pressure ![1, 1, 0, 16/7] = 5/7 := by
    simp [Gas.pressure, Gas.pressureOfInternal, air, dot, mom]; norm_num
  constructor
  · simp [machN, Gas.soundSpeedC, Gas.soundSpeed, hp]
    simp [dot, mom, air]
  · rw [hp]; simp [Gas.freestreamPressure, air]; norm_num

/-- Concrete subsonic-outflow state for `C10_inOut`: Mach number 1/2. -/
example : machN air ![1, 1/2, 0, 107/56] ![1, 0] = 1/2 := by
  have hp : air.pressure ![1, 1/2, 0, 107/56] = 5/7 := by
    simp [Gas.pressure, Gas.pressureOfInternal, air, dot, mom]; norm_num
  have hc : air.soundSpeedC ![1, 1/2, 0, 107/56] = 1 := by
    simp only [Gas.soundSpeedC, Gas.soundSpeed, hp]; simp [air]
  simp only [machN, hc]
  simp [dot, mom]

/-- C10 (partial), isothermal wall: density and momentum rows are right.  Missing: the energy
component, see `C10_isothermal_refuted`. -/
theorem C10_isothermal_partial (G : Gas) (tv tw : ℝ) (u : St) (n : V2) (hr : u 0 ≠ 0)
    (i : Fin 4) (hi : i ≠ 3) :
    (isothermalJ G tv tw u n).gs i = isothermal G tv tw u n i ∧
    HasGrad (fun v => isothermal G tv tw v n i) ((isothermalJ G tv tw u n).dgs i) u := by
  have evr : ∀ᶠ v : St in nhds u, v 0 ≠ 0 :=
    (continuous_apply 0).continuousAt.eventually_ne hr
  fin_cases i
  · refine ⟨by simp [isothermal, isothermalJ], ?_⟩
    have h : (fun v : St => isothermal G tv tw v n 0) = fun v => v 0 := by
      funext v; simp [isothermal]
    show HasGrad (fun v : St => isothermal G tv tw v n 0) _ u
    rw [h]
    refine (HasGrad.coord 0 (u := u)).congr ?_
    funext k; fin_cases k <;> simp [isothermalJ]
  · refine ⟨by simp [isothermal, isothermalJ]; field_simp, ?_⟩
    have h := (C10_adiabatic tv u n).2 1
    have hj : (isothermalJ G tv tw u n).dgs 1 = (adiabaticJ tv u n).dgs 1 := by
      simp [isothermalJ, adiabaticJ]
    show HasGrad (fun v : St => isothermal G tv tw v n 1) ((isothermalJ G tv tw u n).dgs 1) u
    rw [hj]
    refine h.congr_of_eventuallyEq ?_
    filter_upwards [evr] with v hv
    simp [isothermal, adiabatic]; field_simp
  · refine ⟨by simp [isothermal, isothermalJ]; field_simp, ?_⟩
    have h := (C10_adiabatic tv u n).2 2
    have hj : (isothermalJ G tv tw u n).dgs 2 = (adiabaticJ tv u n).dgs 2 := by
      simp [isothermalJ, adiabaticJ]
    show HasGrad (fun v : St => isothermal G tv tw v n 2) ((isothermalJ G tv tw u n).dgs 2) u
    rw [hj]
    refine h.congr_of_eventuallyEq ?_
    filter_upwards [evr] with v hv
    simp [isothermal, adiabatic]; field_simp
  · exact absurd rfl hi

/-- C10 refuted, isothermal wall: the ghost energy returned by the Jacobian routine agrees with
the ghost state used by the residual exactly when the interior is at wall temperature. -/
theorem C10_isothermal_refuted (G : Gas) (tv tw : ℝ) (u : St) (n : V2) (hr : u 0 ≠ 0)
    (hg : 1 < G.g) (hM : G.Minf ≠ 0) :
    (isothermalJ G tv tw u n).gs 3 = isothermal G tv tw u n 3 ↔ G.temperatureC u = tw := by
  have hg1 : G.g - 1 ≠ 0 := by linarith
  have hg0 : G.g ≠ 0 := by linarith
  simp only [isothermal, isothermalJ, Gas.energyOfT, Gas.temperatureC]
  simp only [Matrix.cons_val]
  have e : u 0 * (tw / (G.g * (G.g - 1) * G.Minf * G.Minf) +
        1 / 2 * (((2 * (tv * u 0) * n 1 - u 1) * (2 * (tv * u 0) * n 1 - u 1) +
          (-2 * (tv * u 0) * n 0 - u 2) * (-2 * (tv * u 0) * n 0 - u 2)) / (u 0 * u 0))) -
      u 0 * ((2 * tw - G.temperature (u 0) (G.pressure u)) / (G.g * (G.g - 1) * G.Minf * G.Minf) +
        1 / 2 * ((u 0 * (2 * tv * n 1 - u 1 / u 0) * (u 0 * (2 * tv * n 1 - u 1 / u 0)) +
          u 0 * (-2 * tv * n 0 - u 2 / u 0) * (u 0 * (-2 * tv * n 0 - u 2 / u 0))) / (u 0 * u 0)))
      = u 0 / (G.g * (G.g - 1) * G.Minf * G.Minf) * (G.temperature (u 0) (G.pressure u) - tw) := by
    field_simp; ring
  have hc : u 0 / (G.g * (G.g - 1) * G.Minf * G.Minf) ≠ 0 := by positivity
  constructor
  · intro h
    have h2 : u 0 / (G.g * (G.g - 1) * G.Minf * G.Minf) * (G.temperature (u 0) (G.pressure u) - tw) = 0 := by
      rw [← e]; linarith
    have := (mul_eq_zero.mp h2).resolve_left hc
    linarith
  · intro h
    have h2 : G.temperature (u 0) (G.pressure u) - tw = 0 := by linarith
    rw [h2, mul_zero] at e; linarith

/-- Concrete case: wall temperature 1, interior temperature 21/40: states disagree. -/
example : (isothermalJ air 0 1 uEx ![1, 0]).gs 3 ≠ isothermal air 0 1 uEx ![1, 0] 3 := by
  rw [Ne, C10_isothermal_refuted air 0 1 uEx ![1,0] (by simp [uEx]) (by norm_num [air])
    (by norm_num [air]), air_uEx_T]
  norm_num

/-! ## C11: no-slip walls -/

/-- The wall velocity for tangential speed `tv`: along the tangent `(n_y, -n_x)`. -/
def wallVel (tv : ℝ) (n : V2) : V2 := ![tv * n 1, -tv * n 0]

/-- C11: at the adiabatic wall the mean of interior and ghost velocities is the wall velocity, the
density is unchanged. -/
theorem C11_adiabatic_velocity (tv : ℝ) (u : St) (n : V2) (hr : u 0 ≠ 0) (j : Fin 2) :
    (Gas.vel u j + Gas.vel (adiabatic tv u n) j) / 2 = wallVel tv n j ∧
    adiabatic tv u n 0 = u 0 := by
  refine ⟨?_, by simp [adiabatic]⟩
  fin_cases j <;> simp [Gas.vel, adiabatic, wallVel] <;> field_simp <;> ring

/-- C11: at the isothermal wall the mean velocity is the wall velocity and the mean temperature is
the wall temperature. -/
theorem C11_isothermal (G : Gas) (tv tw : ℝ) (u : St) (n : V2) (hr : u 0 ≠ 0) (hg : 1 < G.g)
    (hM : G.Minf ≠ 0) :
    (∀ j, (Gas.vel u j + Gas.vel (isothermal G tv tw u n) j) / 2 = wallVel tv n j) ∧
    (G.temperatureC u + G.temperatureC (isothermal G tv tw u n)) / 2 = tw := by
  have hg1 : G.g - 1 ≠ 0 := by linarith
  have hg0 : G.g ≠ 0 := by linarith
  refine ⟨fun j => ?_, ?_⟩
  · fin_cases j <;> simp [Gas.vel, isothermal, wallVel] <;> field_simp <;> ring
  · have : G.temperatureC (isothermal G tv tw u n) = 2 * tw - G.temperatureC u := by
      simp only [Gas.temperatureC, Gas.temperature, isothermal, Gas.energyOfT]
      simp only [Gas.pressure, Gas.pressureOfInternal, dot, mom, Matrix.cons_val]
      field_simp; ring
    rw [this]; ring

/-- C11 (partial): at the adiabatic wall the ghost temperature and pressure equal the interior ones
when the wall does not move.  Missing: moving walls, see `C11_adiabatic_temperature_iff`. -/
theorem C11_adiabatic_temperature_partial (G : Gas) (u : St) (n : V2) :
    G.temperatureC (adiabatic 0 u n) = G.temperatureC u ∧
    G.pressure (adiabatic 0 u n) = G.pressure u := by
  have : G.pressure (adiabatic 0 u n) = G.pressure u := by
    simp [Gas.pressure, Gas.pressureOfInternal, adiabatic, dot, mom]
  refine ⟨?_, this⟩
  have h0 : adiabatic 0 u n 0 = u 0 := by simp [adiabatic]
  simp only [Gas.temperatureC, this, h0]

/-- C11, exact condition: the adiabatic wall keeps the temperature iff the wall is at rest or moves
with the interior tangential velocity. -/
theorem C11_adiabatic_temperature_iff (G : Gas) (tv : ℝ) (u : St) (n : V2) (hn : IsUnit2 n)
    (hr : u 0 ≠ 0) (hg : 1 < G.g) (hM : G.Minf ≠ 0) :
    G.temperatureC (adiabatic tv u n) = G.temperatureC u ↔
      tv = 0 ∨ dot (Gas.vel u) ![n 1, -n 0] = tv := by
  have hg1 : G.g - 1 ≠ 0 := by linarith
  have hg0 : G.g ≠ 0 := by linarith
  have hn' : n 1 * n 1 = 1 - n 0 * n 0 := by simp [IsUnit2, dot] at hn; linarith
  have e : G.temperatureC (adiabatic tv u n) - G.temperatureC u =
      (2 * (G.g - 1) * G.g * G.Minf * G.Minf) * (tv * (dot (Gas.vel u) ![n 1, -n 0] - tv)) := by
    simp [Gas.temperatureC, Gas.temperature, Gas.pressure, Gas.pressureOfInternal, adiabatic, dot,
      mom, Gas.vel]
    field_simp
    linear_combination (-4 * tv * tv * u 0 * u 0) * hn'
  have hc : 2 * (G.g - 1) * G.g * G.Minf * G.Minf ≠ 0 := by positivity
  rw [← sub_eq_zero, e, mul_eq_zero, or_iff_right hc, mul_eq_zero]
  constructor
  · rintro (h | h)
    · exact Or.inl h
    · exact Or.inr (by linarith)
  · rintro (h | h)
    · exact Or.inl h
    · exact Or.inr (by linarith)

/-- C11 refuted for moving walls: fluid at rest next to a wall moving with tangential speed 1. -/
theorem C11_adiabatic_temperature_refuted :
    air.temperatureC (adiabatic 1 ![1, 0, 0, 5/2] ![1, 0]) ≠ air.temperatureC ![1, 0, 0, 5/2] := by
  rw [Ne, C11_adiabatic_temperature_iff air 1 ![1,0,0,5/2] ![1,0] (by simp [IsUnit2, dot]) (by simp)
    (by norm_num [air]) (by norm_num [air])]
  simp [dot, Gas.vel]

/-- C11 refuted for the general-velocity wall: with a wall velocity of `NDIM = 2` components every
evaluation reads beyond the array (undefined behaviour). -/
theorem C11_general_wall_ub (w0 w1 : ℝ) (u : St) (n : V2) : adiabaticVec [w0, w1] u n = none := by
  simp [adiabaticVec]

/-- C11: if the array happens to be longer, the mean velocity at the general-velocity wall is made of the
second and third entries; density and energy are those of the interior. -/
theorem C11_general_wall_velocity (w0 w1 w2 : ℝ) (ws : List ℝ) (u : St) (n : V2) (hr : u 0 ≠ 0) :
    ∃ g, adiabaticVec (w0 :: w1 :: w2 :: ws) u n = some g ∧ g 0 = u 0 ∧ g 3 = u 3 ∧
      (Gas.vel u 0 + Gas.vel g 0) / 2 = w1 ∧ (Gas.vel u 1 + Gas.vel g 1) / 2 = w2 := by
  refine ⟨_, by simp [adiabaticVec]; rfl, by simp, by simp, ?_, ?_⟩ <;>
    simp [Gas.vel] <;> field_simp <;> ring

example : ∃ g, adiabaticVec [1, 2, 3] ![1, 0, 1, 5/2] ![1, 0] = some g ∧ g 0 = 1 ∧ g 3 = 5/2 ∧
    (0 / 1 + Gas.vel g 0) / 2 = 2 ∧ (1 / 1 + Gas.vel g 1) / 2 = 3 := by
  simpa [Gas.vel] using C11_general_wall_velocity 1 2 3 [] ![1, 0, 1, 5/2] ![1, 0] (by simp)

/-! ## C12: in/outflow -/

/-- C12: inflow (or tangential flow) imposes the free stream. -/
theorem C12_inflow (G : Gas) (uinf u : St) (n : V2) (hr : 0 < u 0) (h : dot (mom u) n ≤ 0) :
    inOut G uinf u n = uinf := by
  have : machN G u n ≤ 0 := by
    simp only [machN]
    exact div_nonpos_of_nonpos_of_nonneg (div_nonpos_of_nonpos_of_nonneg h hr.le)
      (Real.sqrt_nonneg _)
  simp [inOut, this]

/-- C12: supersonic (and sonic) outflow copies the interior state. -/
theorem C12_supersonic_outflow (G : Gas) (uinf u : St) (n : V2) (hg : 0 < G.g) (hr : 0 < u 0)
    (hp : 0 < G.pressure u) (h : G.soundSpeedC u ≤ dot (mom u) n / u 0) :
    inOut G uinf u n = u := by
  have hc : 0 < G.soundSpeedC u := Real.sqrt_pos.mpr (by positivity)
  have : 1 ≤ machN G u n := by
    simp only [machN]; rw [le_div_iff₀ hc]; linarith
  simp [inOut, not_le.mpr (lt_of_lt_of_le one_pos this), not_lt.mpr this]

/-- C12: subsonic outflow takes density and velocity from the interior and the pressure from the
free stream. -/
theorem C12_subsonic_outflow (G : Gas) (uinf u : St) (n : V2) (hg : 1 < G.g) (hr : 0 < u 0)
    (hp : 0 < G.pressure u) (h0 : 0 < dot (mom u) n) (h1 : dot (mom u) n / u 0 < G.soundSpeedC u) :
    inOut G uinf u n 0 = u 0 ∧ Gas.vel (inOut G uinf u n) = Gas.vel u ∧
    G.pressure (inOut G uinf u n) = 1 / (G.g * G.Minf * G.Minf) := by
  have hg1 : G.g - 1 ≠ 0 := by linarith
  have hc : 0 < G.soundSpeedC u := Real.sqrt_pos.mpr (by positivity)
  have ha : 0 < machN G u n := by simp only [machN]; positivity
  have hb : machN G u n < 1 := by simp only [machN]; rw [div_lt_one hc]; exact h1
  have hr' := hr.ne'
  refine ⟨by simp [inOut, not_le.mpr ha, hb], ?_, ?_⟩
  · funext j; fin_cases j <;> simp [Gas.vel, inOut, not_le.mpr ha, hb]
  · simp [inOut, not_le.mpr ha, hb, Gas.pressure, Gas.pressureOfInternal, Gas.energyOfP,
      Gas.freestreamPressure, dot, mom]
    field_simp; ring

/-- C12: every in/outflow and far-field boundary reproduces the free stream, whatever its
orientation and the Mach number. -/
theorem C12_freestream_reproduced (G : Gas) (aoa : ℝ) (n : V2) (hg : 1 < G.g) (hM : 0 < G.Minf) :
    inOut G (G.freestream aoa) (G.freestream aoa) n = G.freestream aoa ∧
    farfield (G.freestream aoa) (G.freestream aoa) n = G.freestream aoa ∧
    extrapolation (G.freestream aoa) n = G.freestream aoa := by
  refine ⟨?_, rfl, rfl⟩
  have h0 := (C06_freestream G hg hM aoa).1
  by_cases ha : machN G (G.freestream aoa) n ≤ 0
  · simp [inOut, ha]
  · by_cases hb : machN G (G.freestream aoa) n < 1
    · have hcs : Real.cos aoa * Real.cos aoa + Real.sin aoa * Real.sin aoa = 1 := by
        have := Real.cos_sq_add_sin_sq aoa; nlinarith
      have h3 : G.energyOfP G.freestreamPressure (G.freestream aoa 0)
          (dot (mom (G.freestream aoa)) (mom (G.freestream aoa)) /
            (G.freestream aoa 0 * G.freestream aoa 0)) = G.freestream aoa 3 := by
        rw [h0]; simp [Gas.freestream, Gas.windVector, dot, mom, hcs]
      funext i
      fin_cases i
      · simp [inOut, ha, hb]
      · simp [inOut, ha, hb]
      · simp [inOut, ha, hb]
      · simp only [inOut, if_neg ha, if_pos hb]; exact h3
    · simp [inOut, ha, hb]

/-! ## C13: stagnation inflow -/

/-- Total temperature of a state in the code's non-dimensional variables,
`T₀ = T + (γ-1)/2 M∞² |v|²`. -/
noncomputable def totalT (G : Gas) (u : St) : ℝ :=
  G.temperatureC u + (G.g - 1) / 2 * G.Minf ^ 2 * dot (Gas.vel u) (Gas.vel u)

/-- C13 (partial): with unit normal, meaningful radicands and nonzero ghost pressure and
temperature, the ghost's total temperature is the configured one iff the configured value is the
interior's own total temperature (`M∞² c₀²`) or the ghost is at rest.  Missing for the full claim:
arbitrary configured values, see `C13_refuted`. -/
theorem C13_total_temperature_partial (G : Gas) (pt tt : ℝ) (u : St) (n : V2) (hn : IsUnit2 n)
    (hg : 1 < G.g) (hM : 0 < G.Minf) (hpt : 0 < pt) (htt : 0 < tt)
    (hco : 0 < inflowCo2 G u) (hcg : inflowCg G u n ≠ 0)
    (hrad : inflowCg G u n * inflowCg G u n ≤ inflowCo2 G u) :
    totalT G (inflow G pt tt u n) = tt ↔
      tt = G.Minf ^ 2 * inflowCo2 G u ∨ inflowCg G u n ^ 2 = inflowCo2 G u := by
  have hg1 : 0 < G.g - 1 := by linarith
  have hg0 : 0 < G.g := by linarith
  have hn' : n 0 * n 0 + n 1 * n 1 = 1 := hn
  set co2 := inflowCo2 G u with hco2
  set cg := inflowCg G u n with hcgd
  have hcg2 : 0 < cg * cg := mul_self_pos.mpr hcg
  have htg : 0 < tt * cg * cg / co2 := by
    have : tt * cg * cg = tt * (cg * cg) := by ring
    rw [this]; positivity
  set tg := tt * cg * cg / co2 with htgd
  set pg := pt * (tg / tt) ^ (G.g / (G.g - 1)) with hpg
  have hpg0 : 0 < pg := by
    have := Real.rpow_pos_of_pos (div_pos htg htt) (G.g / (G.g - 1)); positivity
  have hd : 0 < G.densityOfPT pg tg := by simp only [Gas.densityOfPT]; positivity
  set vm := Real.sqrt (2 / (G.g - 1) * (co2 - cg * cg)) with hvm
  have hvm2 : vm * vm = 2 / (G.g - 1) * (co2 - cg * cg) :=
    Real.mul_self_sqrt (mul_nonneg (by positivity) (by linarith))
  have hghost : inflow G pt tt u n = ![G.densityOfPT pg tg, G.densityOfPT pg tg * (vm * 1 * n 0),
      G.densityOfPT pg tg * (vm * 1 * n 1), G.energyOfP pg (G.densityOfPT pg tg) (vm * vm)] := rfl
  have hv2 : dot (Gas.vel (inflow G pt tt u n)) (Gas.vel (inflow G pt tt u n)) = vm * vm := by
    rw [hghost]; simp [Gas.vel, dot]
    field_simp
    linear_combination (vm * vm) * hn'
  have hpress : G.pressure (inflow G pt tt u n) = pg := by
    rw [hghost]
    simp only [Gas.pressure, Gas.pressureOfInternal, Gas.energyOfP, dot, mom, Matrix.cons_val]
    field_simp
    linear_combination (-(G.densityOfPT pg tg) * vm ^ 2 * (G.g - 1)) * hn'
  have hT : G.temperatureC (inflow G pt tt u n) = tg := by
    simp only [Gas.temperatureC, Gas.temperature, hpress]
    rw [hghost]; simp only [Matrix.cons_val_zero, Gas.densityOfPT]
    field_simp
  have hM2 : 0 < G.Minf ^ 2 := by positivity
  have key : totalT G (inflow G pt tt u n) - tt = (1 - cg ^ 2 / co2) * (G.Minf ^ 2 * co2 - tt) := by
    simp only [totalT, hT, hv2, hvm2, htgd]
    field_simp; ring
  rw [← sub_eq_zero, key, mul_eq_zero]
  have hz : (1 - cg ^ 2 / co2 = 0) ↔ cg ^ 2 = co2 := by
    rw [sub_eq_zero, eq_comm, div_eq_one_iff_eq hco.ne']
  rw [hz]
  constructor
  · rintro (h | h)
    · exact Or.inr h
    · exact Or.inl (by linarith)
  · rintro (h | h)
    · exact Or.inr (by linarith)
    · exact Or.inl h

/-- The ghost state never enters the domain: the velocity imposed by the inflow condition points
along the outward normal. -/
theorem C13_ghost_never_inflow (G : Gas) (pt tt : ℝ) (u : St) (n : V2) (hn : IsUnit2 n)
    (hd : 0 < inflow G pt tt u n 0) : 0 ≤ dot (mom (inflow G pt tt u n)) n := by
  have h : dot (mom (inflow G pt tt u n)) n = inflow G pt tt u n 0 *
      Real.sqrt (2 / (G.g - 1) * (inflowCo2 G u - inflowCg G u n * inflowCg G u n)) := by
    have hn' : n 0 * n 0 + n 1 * n 1 = 1 := hn
    simp only [inflow, dot, mom, Matrix.cons_val]
    linear_combination (G.densityOfPT (pt * (tt * inflowCg G u n * inflowCg G u n / inflowCo2 G u / tt)
      ^ (G.g / (G.g - 1))) (tt * inflowCg G u n * inflowCg G u n / inflowCo2 G u) *
      Real.sqrt (2 / (G.g - 1) * (inflowCo2 G u - inflowCg G u n * inflowCg G u n))) * hn'
  rw [h]; positivity

/-- Interior state used for the refutation: `ρ = 1`, sound speed 9, velocity `(-3, 0)`. -/
noncomputable def uInfl : St := ![1, -3, 0, 1044/7]

theorem uInfl_c : air.soundSpeedC uInfl = 9 := by
  have hp : air.pressure uInfl = 405/7 := by
    simp [Gas.pressure, Gas.pressureOfInternal, air, dot, mom, uInfl]; norm_num
  have : air.g * (405/7) / uInfl 0 = 9 ^ 2 := by simp [air, uInfl]; norm_num
  simp only [Gas.soundSpeedC, Gas.soundSpeed, hp, this]
  exact Real.sqrt_sq (by norm_num)

theorem uInfl_co2 : inflowCo2 air uInfl = 414/5 := by
  simp only [inflowCo2, uInfl_c]; simp [air, uInfl, dot, mom]; norm_num

theorem uInfl_cg : inflowCg air uInfl ![1, 0] = 5 := by
  have hR : inflowRminus air uInfl ![1, 0] = -8 := by
    simp only [inflowRminus, uInfl_c]; simp [air, uInfl, dot, mom]; norm_num
  have hq : inflowRad air uInfl ![1, 0] = (11/4) ^ 2 := by
    simp only [inflowRad, hR, uInfl_co2]; norm_num [air]
  simp only [inflowCg, hR, hq, Real.sqrt_sq (show (0:ℝ) ≤ 11/4 by norm_num)]; norm_num [air]

/-- C13 refuted: a subsonic inflow state (Mach 1/3 into the domain) with configured total pressure
and temperature 1 gets a ghost state whose total temperature is not 1 and which leaves the
domain. -/
theorem C13_refuted : totalT air (inflow air 1 1 uInfl ![1, 0]) ≠ 1 ∧
    dot (mom uInfl) ![1, 0] < 0 ∧ 0 ≤ dot (mom (inflow air 1 1 uInfl ![1, 0])) ![1, 0] := by
  have hn : IsUnit2 ![1, 0] := by simp [IsUnit2, dot]
  refine ⟨?_, by simp [dot, mom, uInfl], ?_⟩
  · rw [Ne, C13_total_temperature_partial air 1 1 uInfl ![1, 0] hn (by norm_num [air])
      (by norm_num [air]) one_pos one_pos (by rw [uInfl_co2]; norm_num) (by rw [uInfl_cg]; norm_num)
      (by rw [uInfl_cg, uInfl_co2]; norm_num), uInfl_cg, uInfl_co2]
    norm_num [air]
  · refine C13_ghost_never_inflow air 1 1 uInfl ![1, 0] hn ?_
    simp only [inflow, uInfl_cg, uInfl_co2, Gas.densityOfPT, Matrix.cons_val_zero]
    have : (0:ℝ) < (1 * 5 * 5 / (414 / 5) / 1) ^ (air.g / (air.g - 1)) :=
      Real.rpow_pos_of_pos (by norm_num) _
    have hg : 0 < air.g := by norm_num [air]
    have hM : 0 < air.Minf := by norm_num [air]
    positivity

/-! ## C14: construction -/

/-- A configuration the factory can build: supported kind with enough parameters. -/
def Supported (c : Config) : Prop :=
  match c.kind with
  | .periodic => False
  | .subsonicInflow | .isothermalWall => 2 ≤ c.vals.length
  | .adiabaticWall => 1 ≤ c.vals.length
  | _ => True

/-- The object which should be bound to a configuration (specification). -/
def specObj (uinf : St) (c : Config) : Option Obj :=
  match c.kind with
  | .slipWall => some .slip
  | .farfield => some (.farfield uinf)
  | .inflowOutflow => some (.inOut uinf)
  | .subsonicInflow => do return .inflow (← c.vals[0]?) (← c.vals[1]?)
  | .extrapolation => some .extrapolation
  | .adiabaticWall => do return .adiabatic (← c.vals[0]?)
  | .isothermalWall => do return .isothermal (← c.vals[0]?) (← c.vals[1]?)
  | .periodic => none

theorem mkObj_ok_iff (uinf : St) (c : Config) :
    (∃ o, mkObj uinf c = .ok o ∧ specObj uinf c = some o) ↔ Supported c := by
  rcases c with ⟨t, k, vs⟩
  cases k <;> rcases vs with _ | ⟨a, _ | ⟨b, vs⟩⟩ <;> simp [mkObj, Supported, specObj]

theorem mkObj_of_ok {uinf : St} {c : Config} {o : Obj} (h : mkObj uinf c = .ok o) :
    Supported c ∧ specObj uinf c = some o := by
  rcases c with ⟨t, k, vs⟩
  cases k <;> rcases vs with _ | ⟨a, _ | ⟨b, vs⟩⟩ <;> simp_all [mkObj, Supported, specObj]

/-- Last configuration in the list with a given tag (specification). -/
def lastWithTag (cs : List Config) (t : ℤ) : Option Config :=
  cs.reverse.find? (fun c => c.tag == t)

theorem mkAll_ok {uinf : St} : ∀ {cs : List Config} {m m' : ℤ → Option Obj},
    mkAll uinf m cs = .ok m' → (∀ c ∈ cs, Supported c) ∧
      ∀ t, m' t = match lastWithTag cs t with
        | some c => specObj uinf c
        | none => m t := by
  intro cs
  induction cs with
  | nil => intro m m' h; simp [mkAll] at h; subst h; simp [lastWithTag]
  | cons c cs ih =>
    intro m m' h
    simp only [mkAll] at h
    cases ho : mkObj uinf c with
    | throws => simp [ho] at h
    | ub => simp [ho] at h
    | ok o =>
      simp only [ho] at h
      obtain ⟨h1, h2⟩ := ih h
      obtain ⟨hs, hso⟩ := mkObj_of_ok ho
      refine ⟨by simpa using ⟨hs, h1⟩, fun t => ?_⟩
      rw [h2 t]
      simp only [lastWithTag, List.reverse_cons, List.find?_append]
      cases hf : cs.reverse.find? (fun c => c.tag == t) with
      | some d => simp
      | none =>
        by_cases ht : t = c.tag
        · simp [ht, hso]
        · have : ¬ (c.tag = t) := fun e => ht e.symm
          simp [ht, this]

theorem mkAll_supported {uinf : St} : ∀ {cs : List Config} {m : ℤ → Option Obj},
    (∀ c ∈ cs, Supported c) → ∃ m', mkAll uinf m cs = .ok m' := by
  intro cs
  induction cs with
  | nil => intro m _; exact ⟨m, rfl⟩
  | cons c cs ih =>
    intro m h
    obtain ⟨o, ho, -⟩ := (mkObj_ok_iff uinf c).mpr (h c (by simp))
    simp only [mkAll, ho]
    exact ih (fun d hd => h d (by simp [hd]))

/-- C14: construction succeeds exactly when every configured boundary is supported with enough
parameters. -/
theorem C14_succeeds_iff (uinf : St) (cs : List Config) :
    (∃ m, createFlowBCs uinf cs = .ok m) ↔ ∀ c ∈ cs, Supported c :=
  ⟨fun ⟨_, h⟩ => (mkAll_ok h).1, fun h => mkAll_supported h⟩

/-- C14: on success each tag is bound to the condition configured for it (the last one if several
configurations have the tag), and tags without configuration are unbound. -/
theorem C14_binding (uinf : St) (cs : List Config) (m : ℤ → Option Obj)
    (h : createFlowBCs uinf cs = .ok m) (t : ℤ) :
    m t = (lastWithTag cs t).bind (specObj uinf) := by
  rw [(mkAll_ok h).2 t]; cases lastWithTag cs t <;> rfl

/-- C14: with distinct tags every configured boundary gets its own condition. -/
theorem C14_binding_distinct (uinf : St) (cs : List Config) (m : ℤ → Option Obj)
    (hd : (cs.map (·.tag)).Nodup) (h : createFlowBCs uinf cs = .ok m) (c : Config) (hc : c ∈ cs) :
    m c.tag = specObj uinf c := by
  rw [C14_binding uinf cs m h]
  have : lastWithTag cs c.tag = some c := by
    unfold lastWithTag
    cases hf : cs.reverse.find? (fun d => d.tag == c.tag) with
    | none =>
      have := List.find?_eq_none.mp hf c (by simpa using hc)
      simp at this
    | some d =>
      have hd1 := List.find?_some hf
      have hd2 : d ∈ cs := by simpa using List.mem_of_find?_eq_some hf
      simp at hd1
      have := List.inj_on_of_nodup_map hd hd2 hc hd1
      rw [this]
  rw [this]; rfl

/-- C14 (defect): a periodic boundary is never accepted although its name is recognised: any list
in which a periodic boundary is the first problem makes construction throw. -/
theorem C14_periodic_throws (uinf : St) (cs ds : List Config) (c : Config)
    (hs : ∀ c ∈ cs, Supported c) (hc : c.kind = .periodic) :
    createFlowBCs uinf (cs ++ c :: ds) = .throws := by
  unfold createFlowBCs
  generalize (fun _ => none : ℤ → Option Obj) = m
  induction cs generalizing m with
  | nil => simp [mkAll, mkObj, hc]
  | cons d cs ih =>
    obtain ⟨o, ho, -⟩ := (mkObj_ok_iff uinf d).mpr (hs d (by simp))
    simp only [List.cons_append, mkAll, ho]
    exact ih (fun e he => hs e (by simp [he])) _

/-- C14: names and kinds correspond one-to-one: every kind has a name that is read back as that
kind, and a name is accepted only if it is the name of the kind it yields. -/
theorem C14_names (k : Kind) : (nameOfKind k).bind kindOfName = some k := by
  cases k <;> decide

theorem C14_names_injective (s : String) (k : Kind) :
    kindOfName s = some k ↔ nameOfKind k = some s := by
  constructor
  · intro h
    simp only [kindOfName, Option.map_eq_some_iff] at h
    obtain ⟨e, he, rfl⟩ := h
    have h1 := List.find?_some he
    have h2 := List.mem_of_find?_eq_some he
    simp only [beq_iff_eq] at h1
    subst h1
    simp only [typeMap, List.mem_cons, List.not_mem_nil, or_false] at h2
    rcases h2 with rfl | rfl | rfl | rfl | rfl | rfl | rfl | rfl <;> decide
  · intro h
    cases k <;> simp [nameOfKind, typeMap] at h <;> subst h <;> decide

example : (∀ c ∈ [(⟨2, .slipWall, []⟩ : Config), ⟨4, .adiabaticWall, [0]⟩], Supported c) ∧
    ([(⟨2, .slipWall, []⟩ : Config), ⟨4, .adiabaticWall, [0]⟩].map (·.tag)).Nodup := by
  constructor
  · intro c hc; simp at hc; rcases hc with rfl | rfl <;> simp [Supported]
  · simp

end BC
end FVENS
