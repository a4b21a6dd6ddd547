import Verif.FV.Visc

/-!
# Heat conduction (C81)

The code conducts along the gradient of a temperature made dimensionless with the free-stream one, with a coefficient containing the
free-stream Mach number. The specification is Fourier's law in terms of enthalpy, `q = -(μ/Pr) ∇h`, which contains neither.
-/

namespace FVENS
namespace FV

/-- Specification: specific enthalpy `γ/(γ-1) p/ρ` of a conserved state. -/
noncomputable def enthalpy (gamma : ℝ) (u : St) : ℝ :=
  gamma / (gamma - 1) * (((gamma - 1) * (u 3 - (u 1 ^ 2 + u 2 ^ 2) / (2 * u 0))) / u 0)

/-- Specification: its derivative in a direction in which density and pressure change at the rates `dr` and `dp`. -/
noncomputable def dEnthalpy (gamma : ℝ) (u : St) (dr dp : ℝ) : ℝ :=
  gamma / (gamma - 1) * ((dp * u 0 - (gamma - 1) * (u 3 - (u 1 ^ 2 + u 2 ^ 2) / (2 * u 0)) * dr) / u 0 ^ 2)

/-- Specification: gradient of the enthalpy at a face, from the values (and in second order the gradients) of the cells on
both sides, by the same averaging as for the other variables. -/
noncomputable def gradH (gamma : ℝ) (second : Bool) (xl xr : V2) (cl cr : St) (gl gr : Gr) (d : Fin 2) : ℝ :=
  faceGrad (ι := Unit) xl xr (fun _ => enthalpy gamma cl) (fun _ => enthalpy gamma cr)
    (fun d _ => if second then dEnthalpy gamma cl (gl d 0) (gl d 3) else 0)
    (fun d _ => if second then dEnthalpy gamma cr (gr d 0) (gr d 3) else 0) d ()

theorem state2_temp (G : Gas) (second : Bool) {u : St} (hg : 1 < G.g) (hr : u 0 ≠ 0) :
    state2 G second u 3 = (G.g - 1) * G.Minf ^ 2 * enthalpy G.g u := by
  have h1 : G.g - 1 ≠ 0 := by linarith
  have h : G.temperature (u 0) (G.pressure u) = (G.g - 1) * G.Minf ^ 2 * enthalpy G.g u := by
    unfold Gas.temperature Gas.pressure Gas.pressureOfInternal enthalpy dot mom
    simp only [Matrix.cons_val]
    field_simp
  unfold state2
  cases second
  · simpa [Gas.prim2OfCons] using h
  · simpa [Gas.primOfCons] using h

theorem grad2_temp (G : Gas) {u : St} (g : Gr) (hg : 1 < G.g) (hr : u 0 ≠ 0) (d : Fin 2) :
    grad2 G u g d 3 = (G.g - 1) * G.Minf ^ 2 * dEnthalpy G.g u (g d 0) (g d 3) := by
  have h1 : G.g - 1 ≠ 0 := by linarith
  unfold grad2 Gas.gradTemperature Gas.primOfCons Gas.pressure Gas.pressureOfInternal dEnthalpy dot mom
  simp only [Matrix.cons_val]
  field_simp

/-- C81: the energy flux is the work of the viscous momentum flux at the mean velocity and the conducted heat `-(μ/Pr) ∇h·n`. -/
theorem C81_fourier (G : Gas) (second cv : Bool) (n xl xr : V2) {cl cr : St} (gl gr : Gr) (ul ur : St) (hg : 1 < G.g) (hM : G.Minf ≠ 0)
    (hl : cl 0 ≠ 0) (hr : cr 0 ≠ 0) :
    let f := viscousFlux G second cv n xl xr cl cr gl gr ul ur
    let v : V2 := fun j => (Gas.vel ul j + Gas.vel ur j) / 2
    f 3 = (f 1 * v 0 + f 2 * v 1) -
      faceMu G cv ul ur / G.Pr * (gradH G.g second xl xr cl cr gl gr 0 * n 0 + gradH G.g second xl xr cl cr gl gr 1 * n 1) := by
  intro f v
  have h1 : G.g - 1 ≠ 0 := by linarith
  have key : ∀ d, faceGrad xl xr (state2 G second cl) (state2 G second cr) (if second then grad2 G cl gl else 0)
      (if second then grad2 G cr gr else 0) d 3 = (G.g - 1) * G.Minf ^ 2 * gradH G.g second xl xr cl cr gl gr d := by
    intro d
    unfold gradH faceGrad dot
    rw [state2_temp G second hg hl, state2_temp G second hg hr]
    cases second
    · simp; ring
    · simp only [if_true, grad2_temp G _ hg hl, grad2_temp G _ hg hr]; ring
  have h := (C52_flux G cv n (faceGrad xl xr (state2 G second cl) (state2 G second cr) (if second then grad2 G cl gl else 0)
      (if second then grad2 G cr gr else 0)) ul ur).2.2
  rw [key, key] at h
  have hk : ∀ a, G.conductivity (faceMu G cv ul ur) * ((G.g - 1) * G.Minf ^ 2 * a) = faceMu G cv ul ur / G.Pr * a := by
    intro a; unfold Gas.conductivity; field_simp
  have e : ∀ a b : ℝ, (G.g - 1) * G.Minf ^ 2 * a * n 0 + (G.g - 1) * G.Minf ^ 2 * b * n 1 =
      (G.g - 1) * G.Minf ^ 2 * (a * n 0 + b * n 1) := fun a b => by ring
  rw [e, hk] at h
  exact h

/-- C81: heat flows from the warmer to the colder cell: for gas at rest on both sides and a normal not turned away from the line of
centres, the energy leaving the left cell is positive exactly if that is warmer. -/
theorem C81_direction (G : Gas) (cv : Bool) {n xl xr : V2} {cl cr : St} (hg : 1 < G.g) (hM : G.Minf ≠ 0) (hPr : 0 < G.Pr)
    (hl : cl 0 ≠ 0) (hr : cr 0 ≠ 0) (hx : xl ≠ xr) (hn : 0 < (xr 0 - xl 0) * n 0 + (xr 1 - xl 1) * n 1) (hmu : 0 < faceMu G cv cl cr)
    (hml : mom cl = 0) (hmr : mom cr = 0) :
    0 < viscousFlux G false cv n xl xr cl cr 0 0 cl cr 3 ↔ G.temperatureC cr < G.temperatureC cl := by
  have h := C81_fourier G false cv n xl xr (cl := cl) (cr := cr) 0 0 cl cr hg hM hl hr
  have hv : ∀ u : St, mom u = 0 → ∀ j, Gas.vel u j = 0 := by
    intro u hu j
    have h1 : u 1 = 0 := by simpa [mom] using congrFun hu 0
    have h2 : u 2 = 0 := by simpa [mom] using congrFun hu 1
    fin_cases j <;> simp [Gas.vel, h1, h2]
  have hT : ∀ u : St, u 0 ≠ 0 → G.temperatureC u = (G.g - 1) * G.Minf ^ 2 * enthalpy G.g u := by
    intro u hu
    have := state2_temp G false hg hu
    simpa [state2, Gas.prim2OfCons, Gas.temperatureC] using this
  have hd := cdist_pos hx
  simp only [hv cl hml, hv cr hmr, gradH, Bool.false_eq_true, if_false] at h
  have hz : ∀ d, faceGrad (ι := Unit) xl xr (fun _ => enthalpy G.g cl) (fun _ => enthalpy G.g cr) (fun _ _ => 0) (fun _ _ => 0) d () =
      (enthalpy G.g cr - enthalpy G.g cl) / cdist xl xr * ((xr d - xl d) / cdist xl xr) := by
    intro d
    exact congrFun (congrFun (faceGrad_zero xl xr (fun _ : Unit => enthalpy G.g cl) (fun _ => enthalpy G.g cr)) d) ()
  rw [hz, hz] at h
  rw [h, hT cl hl, hT cr hr]
  have hK : 0 < (G.g - 1) * G.Minf ^ 2 := mul_pos (by linarith) (by positivity)
  have e : viscousFlux G false cv n xl xr cl cr 0 0 cl cr 1 * ((0 + 0) / 2) + viscousFlux G false cv n xl xr cl cr 0 0 cl cr 2 * ((0 + 0) / 2) -
      faceMu G cv cl cr / G.Pr * ((enthalpy G.g cr - enthalpy G.g cl) / cdist xl xr * ((xr 0 - xl 0) / cdist xl xr) * n 0 +
        (enthalpy G.g cr - enthalpy G.g cl) / cdist xl xr * ((xr 1 - xl 1) / cdist xl xr) * n 1) =
      (faceMu G cv cl cr / G.Pr / (cdist xl xr * cdist xl xr) * ((xr 0 - xl 0) * n 0 + (xr 1 - xl 1) * n 1)) *
        (enthalpy G.g cl - enthalpy G.g cr) := by
    field_simp; ring
  rw [e, mul_pos_iff_of_pos_left (by positivity), sub_pos, mul_lt_mul_iff_right₀ hK]

/-- Air at rest at a face of a unit mesh; constant viscosity. The left cell is warmer. -/
example : 0 < viscousFlux air false true ![1, 0] ![0, 0] ![1, 0] ![1, 0, 0, 10] ![2, 0, 0, 10] 0 0 ![1, 0, 0, 10] ![2, 0, 0, 10] 3 := by
  refine (C81_direction air true (by norm_num [air]) (by norm_num [air]) (by norm_num [air]) (by simp) (by simp)
    (fun e => by have := congrFun e 0; norm_num at this) (by simp) (by norm_num [faceMu, Gas.constViscosity, air]) ?_ ?_).2 ?_
  · funext j; fin_cases j <;> simp [mom]
  · funext j; fin_cases j <;> simp [mom]
  · simp only [Gas.temperatureC, Gas.temperature, Gas.pressure, Gas.pressureOfInternal, dot, mom, air, Matrix.cons_val]
    norm_num

end FV
end FVENS
