import Verif.Phys.Props

/-!
# Face gradients and viscous fluxes (C52, C73)
-/

namespace FVENS
namespace FV

/-- Centre distance, src/spatial/aspatial.cpp:179-184. -/
noncomputable def cdist (xl xr : V2) : ℝ := √((0 + (xr 0 - xl 0) * (xr 0 - xl 0)) + (xr 1 - xl 1) * (xr 1 - xl 1))

/-- Unit vector between the centres, src/spatial/aspatial.cpp:179-187. -/
noncomputable def cdir (xl xr : V2) (j : Fin 2) : ℝ := (xr j - xl j) / cdist xl xr

/-- `getFaceGradient_modifiedAverage`, src/spatial/aspatial.cpp:172-205, for any number of variables. -/
noncomputable def faceGrad {ι : Type*} (xl xr : V2) (ul ur : ι → ℝ) (gl gr : Fin 2 → ι → ℝ) : Fin 2 → ι → ℝ := fun j i =>
  let davg : V2 := fun j => 1 / 2 * (gl j i + gr j i)
  let corr := (ur i - ul i) / cdist xl xr
  let ddr := dot davg (cdir xl xr)
  davg j - ddr * cdir xl xr j + corr * cdir xl xr j

/-- `getFaceGradientAndJacobian_thinLayer`, src/spatial/aspatial.cpp:207-240: gradient. -/
noncomputable def thinGrad {ι : Type*} (xl xr : V2) (ul ur : ι → ℝ) : Fin 2 → ι → ℝ := fun j i =>
  (ur i - ul i) / cdist xl xr * cdir xl xr j

/-- Its derivatives from those of the variables. -/
noncomputable def dThinL (xl xr : V2) (dul : Fin 4 → St) : Fin 2 → Fin 4 → St := fun j i k => -dul i k / cdist xl xr * cdir xl xr j
noncomputable def dThinR (xl xr : V2) (dur : Fin 4 → St) : Fin 2 → Fin 4 → St := fun j i k => dur i k / cdist xl xr * cdir xl xr j

/-- One side of `getPrimitive2StatesAndGradients`, second order, src/physics/viscousphysics.cpp:34-61: temperature gradient replaces
pressure gradient. (The call in src/spatial/flow_spatial.cpp:379-381 passes the same arrays as input and output; each entry is read
before it is overwritten.) -/
noncomputable def grad2 (G : Gas) (uc : St) (g : Gr) : Gr := fun d =>
  let up := G.primOfCons uc
  ![g d 0, g d 1, g d 2, G.gradTemperature (up 0) (g d 0) (up 3) (g d 3)]

/-- State in variables with temperature: both branches, src/physics/viscousphysics.cpp:36-37, 58-60 and 65-66. -/
noncomputable def state2 (G : Gas) (second : Bool) (uc : St) : St :=
  if second then
    let up := G.primOfCons uc
    ![up 0, up 1, up 2, G.temperature (up 0) (up 3)]
  else G.prim2OfCons uc

/-- Viscosity used at a face, src/physics/viscousphysics.cpp:80-84. -/
noncomputable def faceMu (G : Gas) (constVisc : Bool) (ul ur : St) : ℝ :=
  if constVisc then G.constViscosity else 1 / 2 * (G.viscosityC ul + G.viscosityC ur)

/-- `computeViscousFlux`, src/physics/viscousphysics.cpp:70-122. -/
noncomputable def viscFlux (G : Gas) (constVisc : Bool) (n : V2) (grad : Gr) (ul ur : St) : St :=
  let mu := faceMu G constVisc ul ur
  let kd := G.conductivity mu
  let s := stress mu grad
  let va : V2 := fun j => 1 / 2 * (ul (vix j) / ul 0 + ur (vix j) / ur 0)
  let mf : Fin 2 → ℝ := fun i => (0 - s i 0 * n 0) - s i 1 * n 1
  let comp : Fin 2 → ℝ := fun i => ((0 + s i 0 * va 0) + s i 1 * va 1) + kd * grad i 3
  ![0, mf 0, mf 1, (0 - comp 0 * n 0) - comp 1 * n 1]

/-- `compute_viscous_flux`, src/spatial/flow_spatial.cpp:348-395. -/
noncomputable def viscousFlux (G : Gas) (second constVisc : Bool) (n xl xr : V2) (cl cr : St) (gl gr : Gr) (ul ur : St) : St :=
  let l := if second then grad2 G cl gl else 0
  let r := if second then grad2 G cr gr else 0
  viscFlux G constVisc n (faceGrad xl xr (state2 G second cl) (state2 G second cr) l r) ul ur

/-- `computeViscousFluxJacobian`, src/physics/viscousphysics.cpp:124-246, from zeroed blocks: `L` is `dvfi`, `R` is `dvfj`. -/
noncomputable def viscJac (G : Gas) (constVisc : Bool) (n : V2) (ul ur : St) (grad : Gr) (dl dr : Fin 2 → Fin 4 → St) :
    (Fin 4 → St) × (Fin 4 → St) :=
  let mu := faceMu G constVisc ul ur
  let kd := G.conductivity mu
  let dmul : St := if constVisc then 0 else fun k => G.dViscosityC ul k * (1 / 2)
  let dmur : St := if constVisc then 0 else fun k => G.dViscosityC ur k * (1 / 2)
  let dkl : St := if constVisc then 0 else G.dConductivity dmul
  let dkr : St := if constVisc then 0 else G.dConductivity dmur
  let s := stress mu grad
  let sl := dStress mu dmul grad dl
  let sr := dStress mu dmur grad dr
  let va : V2 := fun j => 1 / 2 * (ul (vix j) / ul 0 + ur (vix j) / ur 0)
  let dva (u : St) (j : Fin 2) : St := fun k =>
    if k = vix j then 1 / 2 / u 0 else if k = 0 then -(1 / 2) * u (vix j) / (u 0 * u 0) else 0
  let comp (ds : Fin 2 → Fin 2 → St) (u dk : St) (dg : Fin 2 → Fin 4 → St) (i : Fin 2) : St := fun k =>
    ((0 + (ds i 0 k * va 0 + s i 0 * dva u 0 k)) + (ds i 1 k * va 1 + s i 1 * dva u 1 k)) + (dk k * grad i 3 + kd * dg i 3 k)
  (![0, fun k => (0 + sl 0 0 k * n 0) + sl 0 1 k * n 1, fun k => (0 + sl 1 0 k * n 0) + sl 1 1 k * n 1,
      fun k => (0 + comp sl ul dkl dl 0 k * n 0) + comp sl ul dkl dl 1 k * n 1],
   ![0, fun k => (0 - sr 0 0 k * n 0) - sr 0 1 k * n 1, fun k => (0 - sr 1 0 k * n 0) - sr 1 1 k * n 1,
      fun k => (0 - comp sr ur dkr dr 0 k * n 0) - comp sr ur dkr dr 1 k * n 1])

/-- `compute_viscous_flux_jacobian`, src/spatial/flow_spatial.cpp:397-446. -/
noncomputable def viscousJac (G : Gas) (constVisc : Bool) (n xl xr : V2) (ul ur : St) : (Fin 4 → St) × (Fin 4 → St) :=
  viscJac G constVisc n ul ur (thinGrad xl xr (G.prim2OfCons ul) (G.prim2OfCons ur)) (dThinL xl xr (G.dPrim2 ul)) (dThinR xl xr (G.dPrim2 ur))

/-! ### C52: face gradient -/

theorem cdist_pos {xl xr : V2} (h : xl ≠ xr) : 0 < cdist xl xr := by
  unfold cdist
  apply Real.sqrt_pos.2
  by_cases h0 : xr 0 = xl 0
  · have h1 : xr 1 - xl 1 ≠ 0 := fun e => h (by funext j; fin_cases j <;> simp <;> linarith)
    have := mul_self_pos.2 h1
    nlinarith [mul_self_nonneg (xr 0 - xl 0)]
  · have := mul_self_pos.2 (sub_ne_zero.2 h0)
    nlinarith [mul_self_nonneg (xr 1 - xl 1)]

theorem cdist_sq (xl xr : V2) : cdist xl xr * cdist xl xr = (xr 0 - xl 0) ^ 2 + (xr 1 - xl 1) ^ 2 := by
  unfold cdist
  rw [Real.mul_self_sqrt (by nlinarith [mul_self_nonneg (xr 0 - xl 0), mul_self_nonneg (xr 1 - xl 1)])]
  ring

theorem cdir_unit {xl xr : V2} (h : xl ≠ xr) : dot (cdir xl xr) (cdir xl xr) = 1 := by
  have hp := cdist_pos h
  unfold dot cdir
  have := cdist_sq xl xr
  field_simp
  nlinarith

theorem cdist_comm (xl xr : V2) : cdist xr xl = cdist xl xr := by unfold cdist; congr 1; ring

theorem cdir_comm (xl xr : V2) (j : Fin 2) : cdir xr xl j = -cdir xl xr j := by unfold cdir; rw [cdist_comm]; ring

/-- C52: the derivative of the face gradient along the line of centres is the difference of the cell values. -/
theorem C52_directional {ι : Type*} {xl xr : V2} (h : xl ≠ xr) (ul ur : ι → ℝ) (gl gr : Fin 2 → ι → ℝ) (i : ι) :
    faceGrad xl xr ul ur gl gr 0 i * (xr 0 - xl 0) + faceGrad xl xr ul ur gl gr 1 i * (xr 1 - xl 1) = ur i - ul i := by
  have hp := cdist_pos h
  have hu := cdir_unit h
  have e : ∀ j, xr j - xl j = cdist xl xr * cdir xl xr j := fun j => by unfold cdir; field_simp
  rw [e 0, e 1]
  unfold faceGrad dot at *
  simp only at *
  set d := cdist xl xr
  set c0 := cdir xl xr 0
  set c1 := cdir xl xr 1
  have hc : (ur i - ul i) / d * d = ur i - ul i := by field_simp
  linear_combination ((ur i - ul i) / d * d - d * (1 / 2 * (gl 0 i + gr 0 i) * c0 + 1 / 2 * (gl 1 i + gr 1 i) * c1)) * hu + hc

/-- C52: across the line of centres it is the average of the cell gradients. With `C52_directional` this determines the gradient. -/
theorem C52_tangential {ι : Type*} {xl xr : V2} (ul ur : ι → ℝ) (gl gr : Fin 2 → ι → ℝ) (i : ι) {t : V2}
    (ht : dot t (fun j => xr j - xl j) = 0) :
    faceGrad xl xr ul ur gl gr 0 i * t 0 + faceGrad xl xr ul ur gl gr 1 i * t 1 = ((gl 0 i + gr 0 i) * t 0 + (gl 1 i + gr 1 i) * t 1) / 2 := by
  unfold dot at ht
  have e : cdir xl xr 0 * t 0 + cdir xl xr 1 * t 1 = 0 := by
    unfold cdir
    have : ((xr 0 - xl 0) / cdist xl xr) * t 0 + (xr 1 - xl 1) / cdist xl xr * t 1 = (t 0 * (xr 0 - xl 0) + t 1 * (xr 1 - xl 1)) / cdist xl xr := by
      ring
    rw [this, ht, zero_div]
  unfold faceGrad dot
  simp only
  set c0 := cdir xl xr 0
  set c1 := cdir xl xr 1
  linear_combination ((ur i - ul i) / cdist xl xr - (1 / 2 * (gl 0 i + gr 0 i) * c0 + 1 / 2 * (gl 1 i + gr 1 i) * c1)) * e

/-- C52: exact for linear fields whose cell gradients are exact. -/
theorem C52_linear {ι : Type*} {xl xr : V2} (h : xl ≠ xr) (c : ι → ℝ) (s : Fin 2 → ι → ℝ) :
    faceGrad xl xr (fun i => c i + (s 0 i * xl 0 + s 1 i * xl 1)) (fun i => c i + (s 0 i * xr 0 + s 1 i * xr 1)) s s = s := by
  have hp := cdist_pos h
  funext j i
  have e : ∀ j, xr j - xl j = cdist xl xr * cdir xl xr j := fun j => by unfold cdir; field_simp
  have hcorr : (c i + (s 0 i * xr 0 + s 1 i * xr 1) - (c i + (s 0 i * xl 0 + s 1 i * xl 1))) / cdist xl xr
      = s 0 i * cdir xl xr 0 + s 1 i * cdir xl xr 1 := by unfold cdir; field_simp; ring
  unfold faceGrad
  simp only
  rw [hcorr]
  unfold dot
  ring

/-- C52: the gradient is the same seen from the other side. -/
theorem C52_gradient_symmetric {ι : Type*} (xl xr : V2) (ul ur : ι → ℝ) (gl gr : Fin 2 → ι → ℝ) :
    faceGrad xr xl ur ul gr gl = faceGrad xl xr ul ur gl gr := by
  funext j i
  unfold faceGrad dot
  simp only [cdir_comm xl xr, cdist_comm xl xr]
  ring

/-- Without cell gradients the modified average is the thin-layer gradient. -/
theorem faceGrad_zero {ι : Type*} (xl xr : V2) (ul ur : ι → ℝ) : faceGrad xl xr ul ur 0 0 = thinGrad xl xr ul ur := by
  funext j i
  simp [faceGrad, thinGrad, dot]

/-! ### C52: viscous flux -/

/-- Both orders use the same variables. -/
theorem state2_eq (G : Gas) (b : Bool) (u : St) : state2 G b u = G.prim2OfCons u := by
  cases b <;> funext i <;> fin_cases i <;> simp [state2, Gas.primOfCons, Gas.prim2OfCons]

/-- The temperature gradient is the derivative of the temperature. -/
theorem C52_temperature_gradient (G : Gas) (u : St) (g : Gr) (d : Fin 2) (hr : (G.primOfCons u) 0 ≠ 0) :
    HasDerivAt (fun t => G.temperature (G.primOfCons u 0 + t * g d 0) (G.primOfCons u 3 + t * g d 3)) (grad2 G u g d 3) 0 := by
  have h1 : HasDerivAt (fun t : ℝ => G.primOfCons u 3 + t * g d 3) (g d 3) 0 := by
    simpa using ((hasDerivAt_id (0 : ℝ)).mul_const (g d 3)).const_add (G.primOfCons u 3)
  have h2 : HasDerivAt (fun t : ℝ => G.primOfCons u 0 + t * g d 0) (g d 0) 0 := by
    simpa using ((hasDerivAt_id (0 : ℝ)).mul_const (g d 0)).const_add (G.primOfCons u 0)
  have h3 := (((h1.div h2 (by simpa using hr)).mul_const G.g).mul_const G.Minf).mul_const G.Minf
  have e : (fun t : ℝ => G.temperature (G.primOfCons u 0 + t * g d 0) (G.primOfCons u 3 + t * g d 3))
      = fun t => (G.primOfCons u 3 + t * g d 3) / (G.primOfCons u 0 + t * g d 0) * G.g * G.Minf * G.Minf := rfl
  rw [e]
  refine h3.congr_deriv ?_
  simp only [grad2, Gas.gradTemperature, zero_mul, add_zero, Matrix.cons_val, pow_two]

/-- C52: no viscous flux in uniform flow (equal states in both cells, no gradients), for either order and viscosity law. -/
theorem C52_uniform (G : Gas) (second cv : Bool) (n xl xr : V2) (c ul ur : St) : viscousFlux G second cv n xl xr c c 0 0 ul ur = 0 := by
  have h0 : grad2 G c 0 = 0 := by
    funext d i; fin_cases i <;> simp [grad2, Gas.gradTemperature]
  have hg : faceGrad xl xr (state2 G second c) (state2 G second c) (if second then grad2 G c 0 else 0) (if second then grad2 G c 0 else 0) = 0 := by
    rw [h0, ite_self, faceGrad_zero]; funext j i; simp [thinGrad]
  unfold viscousFlux
  simp only [hg]
  funext i
  fin_cases i <;> simp [viscFlux, stress]

/-- C52: rigid-body motion without temperature gradient has no viscous flux. -/
theorem C52_rigid (G : Gas) (cv : Bool) (n : V2) (ul ur : St) {g : Gr} (h01 : g 0 1 = 0) (h12 : g 1 2 = 0) (h : g 0 2 = -g 1 1)
    (hT : g 0 3 = 0 ∧ g 1 3 = 0) : viscFlux G cv n g ul ur = 0 := by
  funext i
  fin_cases i <;> simp [viscFlux, stress, vix, h01, h12, h, hT.1, hT.2]

/-- C52: the viscous fluxes computed from the two sides of a face are opposite. -/
theorem C52_opposite (G : Gas) (second cv : Bool) (n xl xr : V2) (cl cr : St) (gl gr : Gr) (ul ur : St) :
    viscousFlux G second cv (fun j => -n j) xr xl cr cl gr gl ur ul = -viscousFlux G second cv n xl xr cl cr gl gr ul ur := by
  unfold viscousFlux
  simp only [C52_gradient_symmetric xl xr]
  have hmu : faceMu G cv ur ul = faceMu G cv ul ur := by unfold faceMu; rw [add_comm]
  funext i
  fin_cases i <;> simp [viscFlux, hmu] <;> ring

/-- C52: mass is not transported; the momentum flux is minus the stress on the face; the energy flux is minus the work of that stress
at the mean velocity minus the conducted heat. -/
theorem C52_flux (G : Gas) (cv : Bool) (n : V2) (g : Gr) (ul ur : St) :
    let f := viscFlux G cv n g ul ur
    let mu := faceMu G cv ul ur
    let v : V2 := fun j => (Gas.vel ul j + Gas.vel ur j) / 2
    f 0 = 0 ∧ (∀ i, f (vix i) = -dot (stress mu g i) n) ∧
      f 3 = (f 1 * v 0 + f 2 * v 1) - G.conductivity mu * (g 0 3 * n 0 + g 1 3 * n 1) := by
  refine ⟨rfl, ?_, ?_⟩
  · intro i
    fin_cases i <;> simp [viscFlux, vix, dot] <;> ring
  · simp [viscFlux, vix, Gas.vel, C07_symmetric (faceMu G cv ul ur) g 1 0]
    ring

/-- C52: in a linear velocity field `c + x·s` the momentum part of the second-order viscous flux is that of the Navier-Stokes equations,
minus viscosity times the deviator of the symmetrised velocity gradient on the face vector, whatever the density and pressure. -/
theorem C52_navier_stokes (G : Gas) (cv : Bool) (n : V2) {xl xr : V2} (h : xl ≠ xr) {c : V2} {s : Fin 2 → V2} {cl cr : St} {gl gr : Gr} (ul ur : St)
    (hl : ∀ i, Gas.vel cl i = c i + (s 0 i * xl 0 + s 1 i * xl 1)) (hr : ∀ i, Gas.vel cr i = c i + (s 0 i * xr 0 + s 1 i * xr 1))
    (hgl : ∀ d i, gl d (vix i) = s d i) (hgr : ∀ d i, gr d (vix i) = s d i) (i : Fin 2) :
    viscousFlux G true cv n xl xr cl cr gl gr ul ur (vix i) =
      -faceMu G cv ul ur * ((s 0 i + s i 0) * n 0 + (s 1 i + s i 1) * n 1 - 2 / 3 * (s 0 0 + s 1 1) * n i) := by
  have key : ∀ d j, faceGrad xl xr (state2 G true cl) (state2 G true cr) (grad2 G cl gl) (grad2 G cr gr) d (vix j) = s d j := by
    intro d j
    have e := congrFun (congrFun (C52_linear h (fun j : Fin 2 => c j) s) d) j
    rw [← e]
    have e1 := hl j
    have e2 := hr j
    have e3 : ∀ d, gl d (vix j) = s d j := fun d => hgl d j
    have e4 : ∀ d, gr d (vix j) = s d j := fun d => hgr d j
    fin_cases j <;> simp [vix, Gas.vel] at e1 e2 e3 e4 <;> fin_cases d <;>
      simp [faceGrad, dot, state2, grad2, Gas.primOfCons, vix, e1, e2, e3, e4]
  have e := (C52_flux G cv n (faceGrad xl xr (state2 G true cl) (state2 G true cr) (grad2 G cl gl) (grad2 G cr gr)) ul ur).2.1 i
  unfold viscousFlux
  simp only [if_true]
  rw [e]
  have k01 := key 0 0
  have k02 := key 0 1
  have k11 := key 1 0
  have k12 := key 1 1
  fin_cases i <;> simp [vix] at k01 k02 k11 k12 <;> simp [dot, stress, vix, k01, k02, k11, k12] <;> ring

/-- C52: the energy part in a field of uniform density `ρ` and linear pressure `p₀ + x·q`: the work of the momentum flux at the mean
velocity and minus conductivity times the exact temperature gradient. -/
theorem C52_heat (G : Gas) (cv : Bool) (n : V2) {xl xr : V2} (h : xl ≠ xr) {rho p0 : ℝ} {q : V2} {cl cr : St} {gl gr : Gr} (ul ur : St) (hrho : rho ≠ 0)
    (hl0 : cl 0 = rho) (hr0 : cr 0 = rho) (hl : G.pressure cl = p0 + (q 0 * xl 0 + q 1 * xl 1)) (hr : G.pressure cr = p0 + (q 0 * xr 0 + q 1 * xr 1))
    (hgl : ∀ d, gl d 0 = 0 ∧ gl d 3 = q d) (hgr : ∀ d, gr d 0 = 0 ∧ gr d 3 = q d) :
    let f := viscousFlux G true cv n xl xr cl cr gl gr ul ur
    f 3 = f 1 * ((Gas.vel ul 0 + Gas.vel ur 0) / 2) + f 2 * ((Gas.vel ul 1 + Gas.vel ur 1) / 2)
      - G.conductivity (faceMu G cv ul ur) * (G.g * G.Minf ^ 2 / rho) * (q 0 * n 0 + q 1 * n 1) := by
  have key : ∀ d, faceGrad xl xr (state2 G true cl) (state2 G true cr) (grad2 G cl gl) (grad2 G cr gr) d 3 = G.g * G.Minf ^ 2 / rho * q d := by
    intro d
    have e := congrFun (congrFun (C52_linear h (fun _ : Unit => G.g * G.Minf ^ 2 / rho * p0) (fun d _ => G.g * G.Minf ^ 2 / rho * q d)) d) ()
    rw [← e]
    have t : ∀ u : St, u 0 = rho → state2 G true u 3 = G.g * G.Minf ^ 2 / rho * G.pressure u := by
      intro u hu; simp [state2, Gas.primOfCons, Gas.temperature, hu]; ring
    have t' : ∀ (u : St) (g : Gr), u 0 = rho → (∀ d, g d 0 = 0 ∧ g d 3 = q d) → ∀ d, grad2 G u g d 3 = G.g * G.Minf ^ 2 / rho * q d := by
      intro u g hu hg d; simp [grad2, Gas.primOfCons, Gas.gradTemperature, hu, (hg d).1, (hg d).2]; field_simp
    simp only [faceGrad, t _ hl0, t _ hr0, t' _ _ hl0 hgl, t' _ _ hr0 hgr, hl, hr, mul_add]
    ring
  have e := (C52_flux G cv n (faceGrad xl xr (state2 G true cl) (state2 G true cr) (grad2 G cl gl) (grad2 G cr gr)) ul ur).2.2
  intro f
  have hf : f = viscFlux G cv n (faceGrad xl xr (state2 G true cl) (state2 G true cr) (grad2 G cl gl) (grad2 G cr gr)) ul ur := by
    simp [f, viscousFlux]
  rw [hf, e, key 0, key 1]
  ring

/-- A shear flow `v = (y, 0)` across a face normal to `y`: the flux of `x` momentum is minus the viscosity. -/
example (ul ur : St) : viscousFlux air true true ![0, 1] ![0, 0] ![0, 1] ![1, 0, 0, 10] ![1, 1, 0, 10] ![![0, 0, 0, 0], ![0, 1, 0, 0]]
    ![![0, 0, 0, 0], ![0, 1, 0, 0]] ul ur 1 = -air.constViscosity := by
  have h := C52_navier_stokes air true ![0, 1] (xl := ![0, 0]) (xr := ![0, 1]) (fun e => by have := congrFun e 1; norm_num at this)
    (c := 0) (s := ![![0, 0], ![1, 0]]) (cl := ![1, 0, 0, 10]) (cr := ![1, 1, 0, 10]) (gl := ![![0, 0, 0, 0], ![0, 1, 0, 0]])
    (gr := ![![0, 0, 0, 0], ![0, 1, 0, 0]]) ul ur (by intro i; fin_cases i <;> simp [Gas.vel]) (by intro i; fin_cases i <;> simp [Gas.vel])
    (by intro d i; fin_cases d <;> fin_cases i <;> simp [vix]) (by intro d i; fin_cases d <;> fin_cases i <;> simp [vix]) 0
  simpa [vix, faceMu] using h

/-- Heat conducted through gas at rest whose pressure grows along the normal at uniform density. -/
example : viscousFlux air true true ![1, 0] ![0, 0] ![1, 0] ![1, 0, 0, 2.5] ![1, 0, 0, 5] ![![0, 0, 0, 1], 0] ![![0, 0, 0, 1], 0] ![1, 0, 0, 2.5] ![1, 0, 0, 5] 3 =
    -(air.conductivity air.constViscosity * (air.g * air.Minf ^ 2)) := by
  have h := C52_heat air true ![1, 0] (xl := ![0, 0]) (xr := ![1, 0]) (fun e => by have := congrFun e 0; norm_num at this)
    (rho := 1) (p0 := 1) (q := ![1, 0]) (cl := ![1, 0, 0, 2.5]) (cr := ![1, 0, 0, 5]) (gl := ![![0, 0, 0, 1], 0]) (gr := ![![0, 0, 0, 1], 0])
    ![1, 0, 0, 2.5] ![1, 0, 0, 5] one_ne_zero (by simp) (by simp) (by simp [Gas.pressure, Gas.pressureOfInternal, mom, dot, air]; norm_num)
    (by simp [Gas.pressure, Gas.pressureOfInternal, mom, dot, air]; norm_num)
    (by intro d; fin_cases d <;> simp) (by intro d; fin_cases d <;> simp)
  simp only [Gas.vel] at h
  rw [h]
  simp [faceMu]

/-! ### C73: viscous Jacobian -/

/-- First-order viscous flux at an interior face as a function of the two cell states. -/
noncomputable def viscous1 (G : Gas) (cv : Bool) (n xl xr : V2) (ul ur : St) : St := viscousFlux G false cv n xl xr ul ur 0 0 ul ur

theorem viscous1_eq (G : Gas) (cv : Bool) (n xl xr : V2) (ul ur : St) :
    viscous1 G cv n xl xr ul ur = viscFlux G cv n (thinGrad xl xr (G.prim2OfCons ul) (G.prim2OfCons ur)) ul ur := by
  unfold viscous1 viscousFlux
  simp only [state2_eq, Bool.false_eq_true, if_false, faceGrad_zero]

/-- Half of the mean velocity. -/
theorem hasGrad_halfVel {u : St} (hr : u 0 ≠ 0) (c : ℝ) (j : Fin 2) :
    HasGrad (fun w : St => 1 / 2 * (w (vix j) / w 0 + c))
      (fun k => if k = vix j then 1 / 2 / u 0 else if k = 0 then -(1 / 2) * u (vix j) / (u 0 * u 0) else 0) u := by
  refine ((((HasGrad.coord (vix j)).div (HasGrad.coord 0) hr).add (HasGrad.const c)).cmul (1 / 2)).congr ?_
  funext k
  fin_cases j <;> fin_cases k <;> simp [vix, Pi.single] <;> field_simp

/-- The general derivative: for any viscosity law with derivative `dmu`, any differentiable face gradient. -/
theorem viscFlux_hasGrad {mu : St → ℝ} {dmu : St} {g : St → Gr} {dg : Fin 2 → Fin 4 → St} {va : St → V2} {dva : Fin 2 → St} {kc : ℝ} {u : St}
    (hmu : HasGrad mu dmu u) (hg : ∀ d v, HasGrad (fun w => g w d v) (dg d v) u) (hva : ∀ j, HasGrad (fun w => va w j) (dva j) u) (n : V2) :
    (∀ i, HasGrad (fun w => (0 - stress (mu w) (g w) i 0 * n 0) - stress (mu w) (g w) i 1 * n 1)
      (fun k => (0 - dStress (mu u) dmu (g u) dg i 0 k * n 0) - dStress (mu u) dmu (g u) dg i 1 k * n 1) u) ∧
    ∀ i, HasGrad (fun w => ((0 + stress (mu w) (g w) i 0 * va w 0) + stress (mu w) (g w) i 1 * va w 1) + mu w / kc * g w i 3)
      (fun k => ((0 + (dStress (mu u) dmu (g u) dg i 0 k * va u 0 + stress (mu u) (g u) i 0 * dva 0 k))
        + (dStress (mu u) dmu (g u) dg i 1 k * va u 1 + stress (mu u) (g u) i 1 * dva 1 k))
        + (dmu k / kc * g u i 3 + mu u / kc * dg i 3 k)) u := by
  have hs := C07_stress_jacobian mu dmu g dg u hmu hg
  constructor
  · intro i
    refine (((HasGrad.const 0).sub ((hs i 0).mul (HasGrad.const (n 0)))).sub ((hs i 1).mul (HasGrad.const (n 1)))).congr ?_
    funext k; simp
  · intro i
    have hk : HasGrad (fun w => mu w / kc) (fun k => dmu k / kc) u := by
      have := hmu.mul (HasGrad.const kc⁻¹)
      refine (this.congr (h' := fun k => dmu k / kc) ?_)
      funext k; simp [div_eq_mul_inv]
    refine ((((HasGrad.const 0).add ((hs i 0).mul (hva 0))).add ((hs i 1).mul (hva 1))).add (hk.mul (hg i 3))).congr ?_
    funext k; simp

/-- C73: if the viscosity derivative is right, the two blocks are minus the derivative with respect to the left state and the derivative
with respect to the right state of the first-order viscous flux. -/
theorem viscousJac_correct (G : Gas) (cv : Bool) (n xl xr : V2) {ul ur : St} (hl : ul 0 ≠ 0) (hr : ur 0 ≠ 0)
    (hml : cv = false → HasGrad G.viscosityC (G.dViscosityC ul) ul) (hmr : cv = false → HasGrad G.viscosityC (G.dViscosityC ur) ur) (i : Fin 4) :
    HasGrad (fun w => viscous1 G cv n xl xr w ur i) (fun k => -(viscousJac G cv n xl xr ul ur).1 i k) ul ∧
    HasGrad (fun w => viscous1 G cv n xl xr ul w i) (fun k => (viscousJac G cv n xl xr ul ur).2 i k) ur := by
  simp only [viscous1_eq]
  have hPl := fun v => C03_prim2 G ul hl v
  have hPr := fun v => C03_prim2 G ur hr v
  -- left
  have hgl : ∀ d v, HasGrad (fun w => thinGrad xl xr (G.prim2OfCons w) (G.prim2OfCons ur) d v) (dThinL xl xr (G.dPrim2 ul) d v) ul := by
    intro d v
    have := ((HasGrad.const (G.prim2OfCons ur v)).sub (hPl v)).mul (HasGrad.const (cdir xl xr d / cdist xl xr))
    refine (this.congr (h' := dThinL xl xr (G.dPrim2 ul) d v) ?_).congr_of_eventuallyEq (Filter.Eventually.of_forall fun w => ?_)
    · funext k; simp [dThinL]; ring
    · simp only [thinGrad]; ring
  have hgr : ∀ d v, HasGrad (fun w => thinGrad xl xr (G.prim2OfCons ul) (G.prim2OfCons w) d v) (dThinR xl xr (G.dPrim2 ur) d v) ur := by
    intro d v
    have := ((hPr v).sub (HasGrad.const (G.prim2OfCons ul v))).mul (HasGrad.const (cdir xl xr d / cdist xl xr))
    refine (this.congr (h' := dThinR xl xr (G.dPrim2 ur) d v) ?_).congr_of_eventuallyEq (Filter.Eventually.of_forall fun w => ?_)
    · funext k; simp [dThinR]; ring
    · simp only [thinGrad]; ring
  have hmul : HasGrad (fun w => faceMu G cv w ur) (if cv then 0 else fun k => G.dViscosityC ul k * (1 / 2)) ul := by
    unfold faceMu
    cases cv
    · refine (((hml rfl).add (HasGrad.const (G.viscosityC ur))).cmul (1 / 2)).congr ?_
      funext k; simp; ring
    · exact HasGrad.const _
  have hmur : HasGrad (fun w => faceMu G cv ul w) (if cv then 0 else fun k => G.dViscosityC ur k * (1 / 2)) ur := by
    unfold faceMu
    cases cv
    · refine (((HasGrad.const (G.viscosityC ul)).add (hmr rfl)).cmul (1 / 2)).congr ?_
      funext k; simp; ring
    · exact HasGrad.const _
  have hvr : ∀ j, HasGrad (fun w : St => 1 / 2 * (ul (vix j) / ul 0 + w (vix j) / w 0))
      (fun k => if k = vix j then 1 / 2 / ur 0 else if k = 0 then -(1 / 2) * ur (vix j) / (ur 0 * ur 0) else 0) ur := fun j =>
    (hasGrad_halfVel hr (ul (vix j) / ul 0) j).congr_of_eventuallyEq (Filter.Eventually.of_forall fun w => by simp only; ring)
  obtain ⟨a1, a2⟩ := viscFlux_hasGrad (kc := G.Minf * G.Minf * (G.g - 1) * G.Pr) hmul hgl (va := fun w j => 1 / 2 * (w (vix j) / w 0 + ur (vix j) / ur 0))
    (fun j => hasGrad_halfVel hl (ur (vix j) / ur 0) j) n
  obtain ⟨b1, b2⟩ := viscFlux_hasGrad (kc := G.Minf * G.Minf * (G.g - 1) * G.Pr) hmur hgr (va := fun w j => 1 / 2 * (ul (vix j) / ul 0 + w (vix j) / w 0))
    hvr n
  constructor
  · fin_cases i
    · refine (HasGrad.const 0).congr ?_
      funext k; simp [viscousJac, viscJac]
    · refine (a1 0).congr ?_
      funext k; simp only [viscousJac, viscJac, Fin.mk_one, Matrix.cons_val_one, Matrix.cons_val_zero]; ring
    · refine (a1 1).congr ?_
      funext k; simp [viscousJac, viscJac]; ring
    · refine ((((HasGrad.const 0).sub ((a2 0).mul (HasGrad.const (n 0)))).sub ((a2 1).mul (HasGrad.const (n 1)))).congr ?_)
      funext k
      cases cv <;> simp [viscousJac, viscJac, Gas.dConductivity, Gas.conductivity] <;> ring
  · fin_cases i
    · refine (HasGrad.const 0).congr ?_
      funext k; simp [viscousJac, viscJac]
    · refine (b1 0).congr ?_
      funext k; simp [viscousJac, viscJac]
    · refine (b1 1).congr ?_
      funext k; simp [viscousJac, viscJac]
    · refine ((((HasGrad.const 0).sub ((b2 0).mul (HasGrad.const (n 0)))).sub ((b2 1).mul (HasGrad.const (n 1)))).congr ?_)
      funext k
      cases cv <;> simp [viscousJac, viscJac, Gas.dConductivity, Gas.conductivity]

/-- C73 for constant viscosity. -/
theorem C73_constant_viscosity (G : Gas) (n xl xr : V2) {ul ur : St} (hl : ul 0 ≠ 0) (hr : ur 0 ≠ 0) (i : Fin 4) :
    HasGrad (fun w => viscous1 G true n xl xr w ur i) (fun k => -(viscousJac G true n xl xr ul ur).1 i k) ul ∧
    HasGrad (fun w => viscous1 G true n xl xr ul w i) (fun k => (viscousJac G true n xl xr ul ur).2 i k) ur :=
  viscousJac_correct G true n xl xr hl hr (by simp) (by simp) i

/-- C73 for Sutherland's law where both temperatures are the free-stream one. Missing for the full claim: other temperatures, where
the viscosity derivative is wrong (`C04_refuted`). -/
theorem C73_sutherland_partial (G : Gas) (n xl xr : V2) {ul ur : St} (hl : ul 0 ≠ 0) (hr : ur 0 ≠ 0) (hTi : 0 < G.Tinf)
    (hTl : G.temperatureC ul = 1) (hTr : G.temperatureC ur = 1) (i : Fin 4) :
    HasGrad (fun w => viscous1 G false n xl xr w ur i) (fun k => -(viscousJac G false n xl xr ul ur).1 i k) ul ∧
    HasGrad (fun w => viscous1 G false n xl xr ul w i) (fun k => (viscousJac G false n xl xr ul ur).2 i k) ur :=
  viscousJac_correct G false n xl xr hl hr (fun _ => C04_sutherland_partial G ul hl hTl hTi) (fun _ => C04_sutherland_partial G ur hr hTr hTi) i

/-- C73, exact for Sutherland's law: a momentum row of the left block is right exactly if the viscosity derivative of the left state is
right or the stress has no component in that direction. -/
theorem C73_exact (G : Gas) (n xl xr : V2) {ul ur : St} (hl : ul 0 ≠ 0) (hT : 0 < G.temperatureC ul) (hTi : 0 < G.Tinf) (i : Fin 2) :
    HasGrad (fun w => viscous1 G false n xl xr w ur (vix i)) (fun k => -(viscousJac G false n xl xr ul ur).1 (vix i) k) ul ↔
    HasGrad G.viscosityC (G.dViscosityC ul) ul ∨ dot (stress 1 (thinGrad xl xr (G.prim2OfCons ul) (G.prim2OfCons ur)) i) n = 0 := by
  obtain ⟨D, hD⟩ : ∃ D, HasGrad G.viscosityC D ul := ⟨_, viscosity_hasGrad G ul hl hT hTi⟩
  have hgl : ∀ d v, HasGrad (fun w => thinGrad xl xr (G.prim2OfCons w) (G.prim2OfCons ur) d v) (dThinL xl xr (G.dPrim2 ul) d v) ul := by
    intro d v
    have := ((HasGrad.const (G.prim2OfCons ur v)).sub (C03_prim2 G ul hl v)).mul (HasGrad.const (cdir xl xr d / cdist xl xr))
    refine (this.congr (h' := dThinL xl xr (G.dPrim2 ul) d v) ?_).congr_of_eventuallyEq (Filter.Eventually.of_forall fun w => ?_)
    · funext k; simp [dThinL]; ring
    · simp only [thinGrad]; ring
  have hmul : HasGrad (fun w => faceMu G false w ur) (fun k => D k * (1 / 2)) ul := by
    unfold faceMu
    refine ((hD.add (HasGrad.const (G.viscosityC ur))).cmul (1 / 2)).congr ?_
    funext k; simp; ring
  obtain ⟨a1, _⟩ := viscFlux_hasGrad (kc := 1) hmul hgl (va := fun _ _ => 0) (dva := 0) (fun j => HasGrad.const 0) n
  have key : ∀ k, -(viscousJac G false n xl xr ul ur).1 (vix i) k =
      ((0 - dStress (faceMu G false ul ur) (fun k => D k * (1 / 2)) (thinGrad xl xr (G.prim2OfCons ul) (G.prim2OfCons ur)) (dThinL xl xr (G.dPrim2 ul)) i 0 k * n 0)
        - dStress (faceMu G false ul ur) (fun k => D k * (1 / 2)) (thinGrad xl xr (G.prim2OfCons ul) (G.prim2OfCons ur)) (dThinL xl xr (G.dPrim2 ul)) i 1 k * n 1)
      + (D k - G.dViscosityC ul k) / 2 * dot (stress 1 (thinGrad xl xr (G.prim2OfCons ul) (G.prim2OfCons ur)) i) n := by
    intro k
    fin_cases i <;> simp [viscousJac, viscJac, vix, dStress, stress, dot] <;> ring
  have hF : ∀ w, viscous1 G false n xl xr w ur (vix i) = (0 - stress (faceMu G false w ur) (thinGrad xl xr (G.prim2OfCons w) (G.prim2OfCons ur)) i 0 * n 0)
      - stress (faceMu G false w ur) (thinGrad xl xr (G.prim2OfCons w) (G.prim2OfCons ur)) i 1 * n 1 := fun w => by
    rw [viscous1_eq]; fin_cases i <;> simp [viscFlux, vix]
  simp only [hF]
  constructor
  · intro h
    have he := (a1 i).unique h
    by_cases hz : dot (stress 1 (thinGrad xl xr (G.prim2OfCons ul) (G.prim2OfCons ur)) i) n = 0
    · exact Or.inr hz
    · left
      refine hD.congr ?_
      funext k
      have := congrFun he k
      rw [key k] at this
      have h2 : (D k - G.dViscosityC ul k) / 2 * dot (stress 1 (thinGrad xl xr (G.prim2OfCons ul) (G.prim2OfCons ur)) i) n = 0 := by linarith
      rcases mul_eq_zero.1 h2 with h2 | h2
      · linarith
      · exact absurd h2 hz
  · intro h
    refine (a1 i).congr ?_
    funext k
    rw [key k]
    rcases h with h | h
    · rw [hD.unique h]; ring
    · rw [h]; ring

/-- C73 refuted for Sutherland's law: air at rest on the right, moving on the left with temperature 21/40. -/
theorem C73_refuted : ¬ HasGrad (fun w => viscous1 air false ![1, 0] ![0, 0] ![1, 0] w ![2, 0, 0, 10] 1)
    (fun k => -(viscousJac air false ![1, 0] ![0, 0] ![1, 0] uEx ![2, 0, 0, 10]).1 1 k) uEx := by
  have hT := air_uEx_T
  have h := C73_exact air ![1, 0] ![0, 0] ![1, 0] (ul := uEx) (ur := ![2, 0, 0, 10]) (by norm_num [uEx]) (by rw [hT]; norm_num) (by norm_num [air]) 0
  intro hh
  rcases h.1 hh with h | h
  · exact C04_refuted air uEx (by norm_num [uEx]) (by rw [hT]; norm_num) (by rw [hT]; norm_num) (by norm_num [air]) (by norm_num [air])
      (by norm_num [air]) (by norm_num [air]) h
  · norm_num [dot, stress, thinGrad, vix, Gas.prim2OfCons, uEx, cdist, cdir] at h

/-! ### Concrete cases -/

example : faceGrad ![0, 0] ![3, 4] (fun _ : Unit => 1) (fun _ => 11) (fun _ _ => 1) (fun _ _ => 2) 0 () * 3 +
    faceGrad ![0, 0] ![3, 4] (fun _ : Unit => 1) (fun _ => 11) (fun _ _ => 1) (fun _ _ => 2) 1 () * 4 = 10 := by
  have h := C52_directional (xl := ![0, 0]) (xr := ![3, 4]) (fun e => by have := congrFun e 0; norm_num at this) (fun _ : Unit => (1 : ℝ)) (fun _ => 11)
    (fun _ _ => 1) (fun _ _ => 2) ()
  norm_num at h ⊢
  linarith

example : HasGrad (fun w => viscous1 air true ![1, 0] ![0, 0] ![1, 2] w uEx 3) (fun k => -(viscousJac air true ![1, 0] ![0, 0] ![1, 2] uEx uEx).1 3 k) uEx :=
  (C73_constant_viscosity air ![1, 0] ![0, 0] ![1, 2] (by norm_num [uEx]) (by norm_num [uEx]) 3).1

end FV
end FVENS
