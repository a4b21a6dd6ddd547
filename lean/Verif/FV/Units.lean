import Verif.Flux.Units
import Verif.FV.Residual

/-!
# Units of mass and time (C99): boundary states, viscous fluxes, gradients, residuals and time steps
-/

namespace FVENS

namespace Units
variable (T : Units)

/-- Factors of density, velocity and pressure. -/
def pr (u : St) : St := ![T.a * u 0, T.b * u 1, T.b * u 2, T.a * T.b ^ 2 * u 3]
/-- Factors of density, velocity and temperature. -/
def tp (u : St) : St := ![T.a * u 0, T.b * u 1, T.b * u 2, u 3]

/-- Parameters of boundary conditions: far-field states, total pressure, wall velocities. -/
def obj : BC.Obj → BC.Obj
  | .slip => .slip
  | .farfield ui => .farfield (T.st ui)
  | .inOut ui => .inOut (T.st ui)
  | .inflow pt tt => .inflow (T.a * T.b ^ 2 * pt) tt
  | .extrapolation => .extrapolation
  | .adiabatic tv => .adiabatic (T.b * tv)
  | .isothermal tv tw => .isothermal (T.b * tv) tw

section gas
variable (G : Gas) (u : St) (n : V2)

theorem temperature_st (r p : ℝ) : (T.gas G).temperature (T.a * r) (T.a * T.b ^ 2 * p) = G.temperature r p := by
  have hb := T.hb.ne'
  unfold Gas.temperature
  rw [mul_assoc T.a, mul_div_mul_left _ _ T.ha.ne', mul_div_assoc]
  simp only [gas]
  field_simp

theorem energyP_st (p d w : ℝ) : (T.gas G).energyOfP (T.a * T.b ^ 2 * p) (T.a * d) (T.b ^ 2 * w) = T.a * T.b ^ 2 * G.energyOfP p d w := by
  unfold Gas.energyOfP; rw [gas_g]; ring

theorem energyT_st (t d w : ℝ) : (T.gas G).energyOfT t (T.a * d) (T.b ^ 2 * w) = T.a * T.b ^ 2 * G.energyOfT t d w := by
  have hb := T.hb.ne'
  unfold Gas.energyOfT
  simp only [gas]
  field_simp

theorem density_st (p t : ℝ) : (T.gas G).densityOfPT (T.a * T.b ^ 2 * p) t = T.a * G.densityOfPT p t := by
  have hb := T.hb.ne'
  unfold Gas.densityOfPT
  simp only [gas]
  field_simp

theorem prim_st : (T.gas G).primOfCons (T.st u) = T.pr (G.primOfCons u) := by
  have h := T.vel_st u
  funext v; fin_cases v
  · rfl
  · exact congrFun h 0
  · exact congrFun h 1
  · exact T.pressure_st G u

theorem cons_st : (T.gas G).consOfPrim (T.pr u) = T.st (G.consOfPrim u) := by
  funext v; fin_cases v
  · rfl
  · simp [Gas.consOfPrim, pr]; ring
  · simp [Gas.consOfPrim, pr]; ring
  · show (T.gas G).energyOfP (T.a * T.b ^ 2 * u 3) (T.a * u 0) (dot (mom (T.pr u)) (mom (T.pr u))) = T.a * T.b ^ 2 * G.energyOfP (u 3) (u 0) (dot (mom u) (mom u))
    rw [← energyP_st]
    congr 1
    simp [dot, mom, pr]; ring

theorem viscosity_st : (T.gas G).viscosityC (T.st u) = T.a * T.b * G.viscosityC u ∧ (T.gas G).constViscosity = T.a * T.b * G.constViscosity := by
  have h : (T.gas G).temperatureC (T.st u) = G.temperatureC u := by
    unfold Gas.temperatureC; rw [pressure_st, st_0, temperature_st]
  constructor
  · unfold Gas.viscosityC
    rw [h]
    simp only [Gas.viscosityT, gas]
    rw [div_div_eq_mul_div, mul_comm _ (T.a * T.b), mul_div_assoc]
  · simp only [Gas.constViscosity, gas]
    rw [one_div_div, mul_one_div]

theorem conductivity_st (mu : ℝ) : (T.gas G).conductivity (T.a * T.b * mu) = T.a * T.b ^ 3 * G.conductivity mu := by
  have hb := T.hb.ne'
  unfold Gas.conductivity
  simp only [gas]
  field_simp

end gas
end Units

/-! ### Boundary states -/

namespace BC
variable (T : Units) (G : Gas) (u : St) (n : V2)

theorem machN_st : machN (T.gas G) (T.st u) n = machN G u n := by
  unfold machN; rw [T.mvn_st, T.soundC_st, T.div_mul']

theorem vm_st : dot (mom (T.st u)) (mom (T.st u)) / (T.st u 0 * T.st u 0) = T.b ^ 2 * (dot (mom u) (mom u) / (u 0 * u 0)) := by
  rw [T.mm_st, T.st_0, show T.a * (T.a * T.b ^ 2) * dot (mom u) (mom u) = T.a ^ 2 * (T.b ^ 2 * dot (mom u) (mom u)) by ring,
    show T.a * u 0 * (T.a * u 0) = T.a ^ 2 * (u 0 * u 0) by ring, mul_div_mul_left _ _ (pow_ne_zero 2 T.ha.ne'), mul_div_assoc]

theorem inflow_parts : inflowRminus (T.gas G) (T.st u) n = T.b * inflowRminus G u n ∧ inflowCo2 (T.gas G) (T.st u) = T.b ^ 2 * inflowCo2 G u ∧
    inflowCg (T.gas G) (T.st u) n = T.b * inflowCg G u n := by
  have h1 : inflowRminus (T.gas G) (T.st u) n = T.b * inflowRminus G u n := by
    unfold inflowRminus; rw [T.mvn_st, T.soundC_st, T.gas_g]; ring
  have h2 : inflowCo2 (T.gas G) (T.st u) = T.b ^ 2 * inflowCo2 G u := by
    unfold inflowCo2
    rw [T.soundC_st, T.gas_g, mul_div_assoc, mul_div_assoc, vm_st]; ring
  have h3 : inflowRad (T.gas G) (T.st u) n = inflowRad G u n := by
    unfold inflowRad
    rw [h1, h2, T.gas_g, show (G.g + 1) * (T.b ^ 2 * inflowCo2 G u) = T.b ^ 2 * ((G.g + 1) * inflowCo2 G u) by ring,
      show (G.g - 1) * (T.b * inflowRminus G u n) * (T.b * inflowRminus G u n) = T.b ^ 2 * ((G.g - 1) * inflowRminus G u n * inflowRminus G u n) by ring,
      mul_div_mul_left _ _ (pow_ne_zero 2 T.hb.ne')]
  refine ⟨h1, h2, ?_⟩
  unfold inflowCg
  rw [h3, h1, T.gas_g]; ring

/-- C99, boundary states of all boundary conditions. The subsonic outflow state of the in/outflow condition takes its pressure from the Mach number, which assumes that
the unit of density is the free-stream density. -/
theorem C99_ghost (o : Obj) (hio : ∀ ui, o = .inOut ui → T.a = 1) : (T.obj o).ghost (T.gas G) (T.st u) n = T.st (o.ghost G u n) := by
  have hb := T.hb.ne'
  have q0 : ∀ a b c d : ℝ, T.st ![a, b, c, d] = ![T.a * a, T.a * T.b * b, T.a * T.b * c, T.a * T.b ^ 2 * d] := fun _ _ _ _ => rfl
  cases o with
  | slip =>
    show slip (T.st u) n = T.st (slip u n)
    unfold slip
    simp only [T.mvn_st]
    simp only [q0, T.st_0, T.st_1, T.st_2, T.st_3]
    funext v; fin_cases v <;> simp <;> ring
  | farfield ui => rfl
  | inOut ui =>
    have ha := hio ui rfl
    show inOut (T.gas G) (T.st ui) (T.st u) n = T.st (inOut G ui u n)
    have hp : (T.gas G).freestreamPressure = T.a * T.b ^ 2 * G.freestreamPressure := by
      unfold Gas.freestreamPressure; simp only [Units.gas]; rw [ha]; field_simp
    unfold inOut
    simp only [machN_st, vm_st, hp]
    split_ifs
    · rfl
    · rw [q0, T.st_0, T.energyP_st]; rfl
    · rfl
  | inflow pt tt =>
    show inflow (T.gas G) (T.a * T.b ^ 2 * pt) tt (T.st u) n = T.st (inflow G pt tt u n)
    obtain ⟨h1, h2, h3⟩ := inflow_parts T G u n
    have ht : tt * (T.b * inflowCg G u n) * (T.b * inflowCg G u n) / (T.b ^ 2 * inflowCo2 G u) = tt * inflowCg G u n * inflowCg G u n / inflowCo2 G u := by
      rw [show tt * (T.b * inflowCg G u n) * (T.b * inflowCg G u n) = T.b ^ 2 * (tt * inflowCg G u n * inflowCg G u n) by ring, mul_div_mul_left _ _ (pow_ne_zero 2 hb)]
    have hv : √(2 / (G.g - 1) * (T.b ^ 2 * inflowCo2 G u - T.b * inflowCg G u n * (T.b * inflowCg G u n))) =
        T.b * √(2 / (G.g - 1) * (inflowCo2 G u - inflowCg G u n * inflowCg G u n)) := by
      rw [show 2 / (G.g - 1) * (T.b ^ 2 * inflowCo2 G u - T.b * inflowCg G u n * (T.b * inflowCg G u n)) =
        T.b ^ 2 * (2 / (G.g - 1) * (inflowCo2 G u - inflowCg G u n * inflowCg G u n)) by ring, Real.sqrt_mul (by positivity), Real.sqrt_sq T.hb.le]
    unfold inflow
    simp only [h2, h3, T.gas_g, ht, hv, q0, mul_assoc (T.a * T.b ^ 2), T.density_st]
    generalize √(2 / (G.g - 1) * (inflowCo2 G u - inflowCg G u n * inflowCg G u n)) = w
    rw [show T.b * w * (T.b * w) = T.b ^ 2 * (w * w) by ring, T.energyP_st]
    funext v; fin_cases v <;> simp <;> ring
  | extrapolation => rfl
  | adiabatic tv =>
    show adiabatic (T.b * tv) (T.st u) n = T.st (adiabatic tv u n)
    funext v; fin_cases v <;> simp [adiabatic] <;> ring
  | isothermal tv tw =>
    show isothermal (T.gas G) (T.b * tv) tw (T.st u) n = T.st (isothermal G tv tw u n)
    have h1 : T.st u 1 / T.st u 0 = T.b * (u 1 / u 0) := congrFun (T.vel_st u) 0
    have h2 : T.st u 2 / T.st u 0 = T.b * (u 2 / u 0) := congrFun (T.vel_st u) 1
    have hq : ∀ x y d : ℝ, (T.a * d * (T.b * x) * (T.a * d * (T.b * x)) + T.a * d * (T.b * y) * (T.a * d * (T.b * y))) / (T.a * d * (T.a * d)) =
        T.b ^ 2 * ((d * x * (d * x) + d * y * (d * y)) / (d * d)) := fun x y d => by
      rw [show T.a * d * (T.b * x) * (T.a * d * (T.b * x)) + T.a * d * (T.b * y) * (T.a * d * (T.b * y)) = T.a ^ 2 * (T.b ^ 2 * (d * x * (d * x) + d * y * (d * y))) by ring,
        show T.a * d * (T.a * d) = T.a ^ 2 * (d * d) by ring, mul_div_mul_left _ _ (pow_ne_zero 2 T.ha.ne'), mul_div_assoc]
    have e1 : 2 * (T.b * tv) * n 1 - T.b * (u 1 / u 0) = T.b * (2 * tv * n 1 - u 1 / u 0) := by ring
    have e2 : -2 * (T.b * tv) * n 0 - T.b * (u 2 / u 0) = T.b * (-2 * tv * n 0 - u 2 / u 0) := by ring
    unfold isothermal
    simp only [h1, h2, T.pressure_st, e1, e2]
    simp only [T.st_0, T.temperature_st, hq, T.energyT_st, q0]
    funext v; fin_cases v <;> simp <;> ring

/-- With a unit of density other than the free-stream density the subsonic outflow state is a different one. -/
theorem C99_outflow_refuted (ui : St) (ha : T.a ≠ 1) (hg : G.g ≠ 0) (hg1 : G.g ≠ 1) (hM : G.Minf ≠ 0) (h0 : 0 < machN G u n) (h1 : machN G u n < 1) :
    (T.obj (.inOut ui)).ghost (T.gas G) (T.st u) n ≠ T.st ((Obj.inOut ui).ghost G u n) := by
  intro h
  have hb := T.hb.ne'
  have h := congrFun h 3
  change inOut (T.gas G) (T.st ui) (T.st u) n 3 = T.a * T.b ^ 2 * inOut G ui u n 3 at h
  unfold inOut at h
  simp only [machN_st, vm_st] at h
  rw [if_neg (not_le.2 h0), if_pos h1, if_neg (not_le.2 h0), if_pos h1] at h
  change (T.gas G).energyOfP _ (T.a * u 0) _ = T.a * T.b ^ 2 * G.energyOfP _ _ _ at h
  have hs : (T.gas G).freestreamPressure = T.b ^ 2 * G.freestreamPressure := by
    unfold Gas.freestreamPressure; simp only [Units.gas]; field_simp
  rw [hs] at h
  unfold Gas.energyOfP at h
  rw [T.gas_g] at h
  have hp : G.freestreamPressure ≠ 0 := by unfold Gas.freestreamPressure; positivity
  have hk : T.b ^ 2 * G.freestreamPressure / (G.g - 1) = T.a * (T.b ^ 2 * G.freestreamPressure / (G.g - 1)) := by linear_combination h
  have hne : T.b ^ 2 * G.freestreamPressure / (G.g - 1) ≠ 0 := div_ne_zero (mul_ne_zero (pow_ne_zero 2 hb) hp) (sub_ne_zero.2 hg1)
  exact ha (mul_right_cancel₀ hne (by linarith))

end BC

namespace FV
open Msh Finset Flux

/-! ### Viscous fluxes -/

section visc
variable (T : Units) (G : Gas)

theorem state2_st (b : Bool) (u : St) : state2 (T.gas G) b (T.st u) = T.tp (state2 G b u) := by
  have hv := T.vel_st u
  have h1 : T.st u 1 / T.st u 0 = T.b * (u 1 / u 0) := congrFun hv 0
  have h2 : T.st u 2 / T.st u 0 = T.b * (u 2 / u 0) := congrFun hv 1
  have h3 : (T.gas G).temperature (T.st u 0) ((T.gas G).pressure (T.st u)) = G.temperature (u 0) (G.pressure u) := by rw [T.pressure_st, T.st_0, T.temperature_st]
  have hp : state2 (T.gas G) b (T.st u) = ![T.st u 0, T.st u 1 / T.st u 0, T.st u 2 / T.st u 0, (T.gas G).temperature (T.st u 0) ((T.gas G).pressure (T.st u))] := by
    cases b <;> rfl
  have hq : state2 G b u = ![u 0, u 1 / u 0, u 2 / u 0, G.temperature (u 0) (G.pressure u)] := by cases b <;> rfl
  rw [hp, hq, h1, h2, h3]; rfl

theorem grad2_st (u : St) (g : Gr) : grad2 (T.gas G) (T.st u) (fun d => T.pr (g d)) = fun d => T.tp (grad2 G u g d) := by
  have ha := T.ha.ne'
  have hb := T.hb.ne'
  funext d
  unfold grad2
  rw [T.prim_st]
  have h3 : ∀ r gr p gp : ℝ, (T.gas G).gradTemperature (T.a * r) (T.a * gr) (T.a * T.b ^ 2 * p) (T.a * T.b ^ 2 * gp) = G.gradTemperature r gr p gp := fun r gr p gp => by
    unfold Gas.gradTemperature
    rw [show T.a * T.b ^ 2 * gp * (T.a * r) - T.a * T.b ^ 2 * p * (T.a * gr) = T.a ^ 2 * (T.b ^ 2 * (gp * r - p * gr)) by ring,
      show T.a * r * (T.a * r) = T.a ^ 2 * (r * r) by ring, mul_div_mul_left _ _ (pow_ne_zero 2 ha), mul_div_assoc]
    simp only [Units.gas]
    field_simp
  funext v; fin_cases v
  · rfl
  · rfl
  · rfl
  · exact h3 _ _ _ _

theorem faceGrad_tp (x y : V2) (ul ur : St) (gl gr : Gr) :
    faceGrad x y (T.tp ul) (T.tp ur) (fun d => T.tp (gl d)) (fun d => T.tp (gr d)) = fun d => T.tp (faceGrad x y ul ur gl gr d) := by
  funext d v
  unfold faceGrad
  fin_cases v <;> simp [Units.tp, dot] <;> ring

theorem viscFlux_st (cv : Bool) (n : V2) (g : Gr) (ul ur : St) :
    viscFlux (T.gas G) cv n (fun d => T.tp (g d)) (T.st ul) (T.st ur) = T.fl (viscFlux G cv n g ul ur) := by
  have hmu : faceMu (T.gas G) cv (T.st ul) (T.st ur) = T.a * T.b * faceMu G cv ul ur := by
    unfold faceMu
    rw [(T.viscosity_st G ul).1, (T.viscosity_st G ur).1, (T.viscosity_st G ul).2]
    split_ifs <;> ring
  have hv : ∀ (u : St) (j : Fin 2), T.st u (vix j) / T.st u 0 = T.b * (u (vix j) / u 0) := fun u j => by
    fin_cases j
    · exact congrFun (T.vel_st u) 0
    · exact congrFun (T.vel_st u) 1
  have hs : ∀ (mu : ℝ) (i j : Fin 2), stress (T.a * T.b * mu) (fun d => T.tp (g d)) i j = T.a * T.b ^ 2 * stress mu g i j := fun mu i j => by
    unfold stress
    fin_cases i <;> fin_cases j <;> simp [Units.tp, vix] <;> ring
  unfold viscFlux
  simp only [hmu, T.conductivity_st, hv, hs]
  generalize faceMu G cv ul ur = mu
  generalize (stress mu g) = S
  funext v
  fin_cases v <;> simp [Units.tp] <;> ring

/-- C99, viscous flux, with constant viscosity and with Sutherland's law, first and second order. -/
theorem C99_viscous_flux (second cv : Bool) (n x y : V2) (cl cr : St) (gl gr : Gr) (ul ur : St) :
    viscousFlux (T.gas G) second cv n x y (T.st cl) (T.st cr) (fun d => T.pr (gl d)) (fun d => T.pr (gr d)) (T.st ul) (T.st ur) =
      T.fl (viscousFlux G second cv n x y cl cr gl gr ul ur) := by
  have hz : ∀ (g : Gr) (u : St), (if second = true then grad2 (T.gas G) (T.st u) (fun d => T.pr (g d)) else 0) = fun d => T.tp ((if second = true then grad2 G u g else 0) d) := fun g u => by
    split_ifs
    · exact grad2_st T G u g
    · funext d v; fin_cases v <;> simp [Units.tp]
  unfold viscousFlux
  simp only [hz, state2_st, faceGrad_tp]
  exact viscFlux_st T G cv n _ ul ur

end visc

/-! ### Residuals and time steps -/

/-- The discretisation in other units. -/
noncomputable def _root_.FVENS.Units.disc (T : Units) (D : Disc) : Disc := { D with gas := T.gas D.gas, bc := fun t => (D.bc t).map T.obj }

/-- The in/outflow condition is used only if the unit of density is kept. -/
def _root_.FVENS.Units.OutflowOk (T : Units) (D : Disc) : Prop := ∀ k, k < D.G.m.nbface → ∀ ui, D.bc (D.tag k) = some (.inOut ui) → T.a = 1

section res
variable (T : Units) (D : Disc)

theorem disc_bcOk : (T.disc D).BcOk ↔ D.BcOk := by
  unfold Disc.BcOk Units.disc
  simp only [Option.isSome_map]

theorem bstate_st (hio : T.OutflowOk D) {k : ℕ} (hk : k < D.G.m.nbface) (u : St) : (T.disc D).bstate k (T.st u) = T.st (D.bstate k u) := by
  unfold Disc.bstate Units.disc
  simp only
  cases hc : D.bc (D.tag k) with
  | none => funext v; fin_cases v <;> simp
  | some o => exact BC.C99_ghost T D.gas u _ o fun ui e => hio k hk ui (by rw [hc, e])

/-- C99, flux through a face. -/
theorem C99_face_flux (second : Bool) (u : ℕ → St) (g : ℕ → Gr) {uL uR ug uL' uR' ug' : ℕ → St} {k : ℕ} (hL : uL' k = T.st (uL k)) (hR : uR' k = T.st (uR k)) (hug : k < D.G.m.nbface → ug' k = T.st (ug k)) :
    (T.disc D).faceFlux second (fun i => T.st (u i)) (fun i d => T.pr (g i d)) uL' uR' ug' k = T.fl (D.faceFlux second u g uL uR ug k) := by
  have hur : D.G.ur (fun i => T.st (u i)) ug' k = T.st (D.G.ur u ug k) := by
    unfold Geo.ur; split_ifs with h
    · exact hug h
    · rfl
  have hgr : (if k < D.G.m.nbface then (fun d => T.pr (g (D.G.face k).left d)) else fun d => T.pr (g (D.G.face k).right d)) =
      fun d => T.pr ((if k < D.G.m.nbface then g (D.G.face k).left else g (D.G.face k).right) d) := by split_ifs <;> rfl
  funext v
  unfold Disc.faceFlux
  change D.scheme.flux (T.gas D.gas) (uL' k) (uR' k) (D.G.nrm k) v * D.G.len k + (if D.viscous = true then viscousFlux (T.gas D.gas) second D.constVisc (D.G.nrm k) (D.G.xl k) (D.G.xr k)
    (T.st (u (D.G.face k).left)) (D.G.ur (fun i => T.st (u i)) ug' k) (fun d => T.pr (g (D.G.face k).left d)) (if k < D.G.m.nbface then (fun d => T.pr (g (D.G.face k).left d)) else
      fun d => T.pr (g (D.G.face k).right d)) (uL' k) (uR' k) v * D.G.len k else 0) = _
  rw [hur, hgr, hL, hR, C99_flux, C99_viscous_flux]
  by_cases hv : D.viscous = true
  · simp only [if_pos hv]
    rw [T.fl_eq, T.fl_eq, T.fl_eq]
    fin_cases v <;> simp <;> ring
  · simp only [if_neg hv]
    rw [T.fl_eq, T.fl_eq]
    fin_cases v <;> simp <;> ring

/-- Fluxes in other units, as a homomorphism. -/
def flHom : St →+ St := ⟨⟨T.fl, by funext v; fin_cases v <;> simp⟩, fun a b => by funext v; fin_cases v <;> simp <;> ring⟩

theorem contrib_fl (m : ℕ) (F : Face) (v : St) (i : ℕ) : contrib m F (T.fl v) i = T.fl (contrib m F v i) := by
  have h0 : (0 : St) = T.fl 0 := (map_zero (flHom T)).symm
  have hs : ∀ a b : St, T.fl a - T.fl b = T.fl (a - b) := fun a b => (map_sub (flHom T) a b).symm
  unfold contrib
  split_ifs
  · exact hs _ _
  · rw [← hs, ← h0]
  · rw [← hs, ← h0]
  · rw [sub_zero, ← h0]

/-- C99, accumulated fluxes. -/
theorem C99_fluxes (second : Bool) (u : ℕ → St) (g : ℕ → Gr) {uL uR ug uL' uR' ug' : ℕ → St} (hL : ∀ k, k < D.G.nface → uL' k = T.st (uL k)) (hR : ∀ k, k < D.G.nface → uR' k = T.st (uR k))
    (hug : ∀ k, k < D.G.m.nbface → ug' k = T.st (ug k)) (r : ℕ → St) (i : ℕ) :
    (T.disc D).fluxes second (fun i => T.st (u i)) (fun i d => T.pr (g i d)) uL' uR' ug' (fun i => T.fl (r i)) i = T.fl (D.fluxes second u g uL uR ug r i) := by
  unfold Disc.fluxes
  rw [assemble_eq, assemble_eq]
  change T.fl (r i) + ∑ k ∈ range D.G.s.faces.length, contrib D.G.m.nelem (faceAt D.G.s.faces k) _ i = flHom T _
  rw [map_add, map_sum]
  congr 1
  refine sum_congr rfl fun k hk => ?_
  rw [C99_face_flux T D second u g (hL k (mem_range.1 hk)) (hR k (mem_range.1 hk)) (hug k), contrib_fl]; rfl

/-- C99, first-order residual. -/
theorem C99_first_order (hio : T.OutflowOk D) (u r : ℕ → St) :
    (D.residual1 u r = none ∧ (T.disc D).residual1 (fun i => T.st (u i)) (fun i => T.fl (r i)) = none) ∨
    ∃ o o', D.residual1 u r = some o ∧ (T.disc D).residual1 (fun i => T.st (u i)) (fun i => T.fl (r i)) = some o' ∧
      (∀ k, k < D.G.nface → o'.uL k = T.st (o.uL k) ∧ o'.uR k = T.st (o.uR k)) ∧ ∀ i, o'.res i = T.fl (o.res i) := by
  have hb := disc_bcOk T D
  by_cases h : D.BcOk
  · right
    have hur : ∀ k : ℕ, (if k < (T.disc D).G.m.nbface then (T.disc D).bstate k (T.st (u ((T.disc D).G.face k).left)) else T.st (u ((T.disc D).G.face k).right)) =
        T.st (if k < D.G.m.nbface then D.bstate k (u (D.G.face k).left) else u (D.G.face k).right) := fun k => by
      by_cases hk : k < D.G.m.nbface
      · rw [if_pos hk, if_pos (show k < (T.disc D).G.m.nbface from hk)]; exact bstate_st T D hio hk _
      · rw [if_neg hk, if_neg (show ¬ k < (T.disc D).G.m.nbface from hk)]; rfl
    have hres : ∀ (D : Disc) (u r : ℕ → St), D.BcOk → D.residual1 u r = some ⟨fun k => u (D.G.face k).left,
        fun k => if k < D.G.m.nbface then D.bstate k (u (D.G.face k).left) else u (D.G.face k).right,
        D.fluxes false u 0 (fun k => u (D.G.face k).left) (fun k => if k < D.G.m.nbface then D.bstate k (u (D.G.face k).left) else u (D.G.face k).right)
          (fun k => if k < D.G.m.nbface then D.bstate k (u (D.G.face k).left) else u (D.G.face k).right) r⟩ := fun D u r h => by
      unfold Disc.residual1
      rw [if_pos h]
    refine ⟨_, _, hres D u r h, hres (T.disc D) _ _ (hb.2 h), fun k _ => ⟨rfl, hur k⟩, fun i => ?_⟩
    have hz : (0 : ℕ → Gr) = fun i d => T.pr ((0 : ℕ → Gr) i d) := by funext i d v; fin_cases v <;> simp [Units.pr]
    dsimp only
    rw [hz]
    exact C99_fluxes T D false u 0 (uL := fun k => u (D.G.face k).left) (fun k _ => rfl) (fun k _ => hur k) (fun k _ => hur k) r i
  · left
    unfold Disc.residual1
    rw [if_neg h, if_neg (fun hh => h (hb.1 hh))]
    exact ⟨rfl, rfl⟩

theorem specRad_st (u : St) (k : ℕ) (a : ℝ) : (T.disc D).specRad (T.st u) k a = T.b * D.specRad u k a := by
  have ha := T.ha.ne'
  have hmu : (if D.constVisc = true then (T.gas D.gas).constViscosity else (T.gas D.gas).viscosityC (T.st u)) =
      T.a * T.b * (if D.constVisc = true then D.gas.constViscosity else D.gas.viscosityC u) := by
    rw [(T.viscosity_st D.gas u).1, (T.viscosity_st D.gas u).2]; split_ifs <;> rfl
  have hmx : max (4 / (3 * (T.a * u 0))) (D.gas.g / (T.a * u 0)) * T.a = max (4 / (3 * u 0)) (D.gas.g / u 0) := by
    have hd : ∀ x y : ℝ, x / (T.a * y) * T.a = x / y := fun x y => by rw [mul_comm T.a y, ← div_div, div_mul_cancel₀ _ ha]
    rw [max_mul_of_nonneg _ _ T.ha.le, show 3 * (T.a * u 0) = T.a * (3 * u 0) by ring, hd, hd]
  have hv := T.mvn_st u (D.G.nrm k)
  unfold Disc.specRad
  change (|dot (mom (T.st u)) (D.G.nrm k) / T.st u 0| + (T.gas D.gas).soundSpeedC (T.st u)) * D.G.len k + (if D.viscous = true then
    max (4 / (3 * (T.a * u 0))) (D.gas.g / (T.a * u 0)) * (if D.constVisc = true then (T.gas D.gas).constViscosity else (T.gas D.gas).viscosityC (T.st u)) / D.gas.Pr * D.G.len k * D.G.len k / a
    else 0) = _
  rw [hv, T.abs_mul', T.soundC_st, hmu, ← hmx]
  split_ifs <;> ring

/-- C99, local time steps: times are divided by the factor of velocity. -/
theorem C99_time_steps (hok : D.G.Ok) {uL uL' uR uR' : ℕ → St} (hL : ∀ k, k < D.G.nface → uL' k = T.st (uL k)) (hR : ∀ k, k < D.G.nface → uR' k = T.st (uR k)) {i : ℕ} (hi : i < D.G.m.nelem) :
    (T.disc D).timestep uL' uR' i = D.timestep uL uR i / T.b := by
  unfold Disc.timestep
  rw [Disc.C51_integral hok uL uR hi, Disc.C51_integral (D := T.disc D) hok uL' uR' hi]
  have e : ∑ k ∈ (range D.G.nface).filter (D.G.touches i), (T.disc D).sideRad uL' uR' i k = T.b * ∑ k ∈ (range D.G.nface).filter (D.G.touches i), D.sideRad uL uR i k := by
    rw [mul_sum]
    refine sum_congr rfl fun k hk => ?_
    have hk := mem_range.1 (mem_filter.1 hk).1
    unfold Disc.sideRad
    rw [hL k hk, hR k hk, ← specRad_st]
    change (T.disc D).specRad (if (D.G.face k).left = i then T.st (uL k) else T.st (uR k)) k (D.G.ar i) = _
    congr 1
    split_ifs <;> rfl
  change D.G.ar i / ∑ k ∈ (range D.G.nface).filter (D.G.touches i), (T.disc D).sideRad uL' uR' i k = _
  rw [e, mul_comm, ← div_div]

end res
end FV
end FVENS
