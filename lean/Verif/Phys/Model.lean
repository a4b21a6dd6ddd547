import Verif.Phys.Calc
import Mathlib.Analysis.SpecialFunctions.Trigonometric.Basic
import Mathlib.Data.Fin.VecNotation

/-!
# Ideal-gas physics (model of `src/physics/aphysics_defs.hpp`, `src/physics/aphysics.cpp`)

Scalars are real numbers (simplification: no rounding, no NaN).  `NDIM = 2`, `NVARS = 4`
(`src/aconstants.hpp`).  A state is `u[0..3] = (ρ, ρv_x, ρv_y, ρE)`.
-/

namespace FVENS

/-- A vector of `NDIM = 2` components: normals, velocities, positions. -/
abbrev V2 := Fin 2 → ℝ

/-- `dimDotProduct`, src/mathutils.hpp:25-31, on vectors of `NDIM` components. -/
def dot (a b : V2) : ℝ := a 0 * b 0 + a 1 * b 1

/-- The pointer `&u[1]` used as an `NDIM`-vector (momentum or velocity components),
e.g. src/physics/aphysics_defs.hpp:62. -/
def mom (u : St) : V2 := ![u 1, u 2]

/-- Parameters of `IdealGasPhysics`, src/physics/aphysics.cpp:17-19. -/
structure Gas where
  g : ℝ
  Minf : ℝ
  Tinf : ℝ
  Reinf : ℝ
  Pr : ℝ

/-- Sutherland constant, src/physics/aphysics.cpp:19 (`sC{110.5}`). -/
noncomputable def sC : ℝ := 221 / 2

namespace Gas
variable (G : Gas)

/-- `getDirectionalFlux`, src/physics/aphysics_defs.hpp:15-23. -/
def dirFlux (uc : St) (n : V2) (vn p : ℝ) : St :=
  ![vn * uc 0, vn * uc 1 + p * n 0, vn * uc 2 + p * n 1, vn * (uc 3 + p)]

/-- `getVarsFromConserved`, src/physics/aphysics_defs.hpp:27-38: velocity. -/
noncomputable def vel (uc : St) : V2 := ![uc 1 / uc 0, uc 2 / uc 0]

/-- `getVarsFromConserved`, src/physics/aphysics_defs.hpp:27-38: normal velocity. -/
noncomputable def varsVn (uc : St) (n : V2) : ℝ := dot (vel uc) n

/-- `getVarsFromConserved`, src/physics/aphysics_defs.hpp:36: pressure. -/
noncomputable def varsP (uc : St) : ℝ :=
  (G.g - 1) * (uc 3 - 1 / 2 * uc 0 * dot (vel uc) (vel uc))

/-- `getVarsFromConserved`, src/physics/aphysics_defs.hpp:37: total enthalpy. -/
noncomputable def varsH (uc : St) : ℝ := (uc 3 + G.varsP uc) / uc 0

/-- `getJacobianVmag2WrtConserved`, src/physics/aphysics_defs.hpp:43-49 (increment added to the
output array, which the callers zero first). -/
noncomputable def dVmag2 (uc : St) : St :=
  ![-2 / (uc 0 * uc 0 * uc 0) * dot (mom uc) (mom uc), 2 * uc 1 / (uc 0 * uc 0),
    2 * uc 2 / (uc 0 * uc 0), 0]

/-- `getPressure`, src/physics/aphysics_defs.hpp:53-55. -/
def pressureOfInternal (e : ℝ) : ℝ := (G.g - 1) * e

/-- `getPressureFromConserved`, src/physics/aphysics_defs.hpp:60-63. -/
noncomputable def pressure (uc : St) : ℝ :=
  G.pressureOfInternal (uc 3 - 1 / 2 * dot (mom uc) (mom uc) / uc 0)

/-- One term of the loop in `getDeltaPressureFromConserved`,
src/physics/aphysics_defs.hpp:75-78. -/
noncomputable def deltaPTerm (u du : St) (i : Fin 4) : ℝ :=
  (u i + (u i + du i)) * (u 0 + (u 0 + du 0)) / 2 * du i
    - ((u i + du i) * (u i + du i) + u i * u i) / 2 * du 0

/-- `getDeltaPressureFromConserved`, src/physics/aphysics_defs.hpp:67-81.  The loop runs over
`i = 2, 3` (as in the code: `for(int i = 2; i < NDIM+2; i++)`). -/
noncomputable def deltaPressure (u du : St) : ℝ :=
  let dp : ℝ := 0
  let dp := dp - deltaPTerm u du 2
  let dp := dp - deltaPTerm u du 3
  (G.g - 1) * (du 3 - 1 / (2 * u 0 * (u 0 + du 0)) * dp)

/-- `getGradPressureFromConservedAndGradConserved`, src/physics/aphysics_defs.hpp:85-91. -/
noncomputable def gradPressure (uc guc : St) : ℝ :=
  (G.g - 1) * (guc 3 - 1 / 2 / (uc 0 * uc 0)
    * (2 * uc 0 * dot (mom uc) (mom guc) - dot (mom uc) (mom uc) * guc 0))

/-- `getJacobianPressureWrtConserved`, src/physics/aphysics_defs.hpp:95-102. -/
noncomputable def dPressure (uc : St) : St :=
  ![(G.g - 1) * (1 / 2) * dot (mom uc) (mom uc) / (uc 0 * uc 0), -(G.g - 1) * uc 1 / uc 0,
    -(G.g - 1) * uc 2 / uc 0, G.g - 1]

/-- `getJacobianPressureWrtConserved` (overload), src/physics/aphysics_defs.hpp:106-114. -/
noncomputable def dPressure' (uc : St) (rho2vmag2 : ℝ) : St :=
  ![(G.g - 1) * (1 / 2) * rho2vmag2 / (uc 0 * uc 0), -(G.g - 1) * uc 1 / uc 0,
    -(G.g - 1) * uc 2 / uc 0, G.g - 1]

/-- `getTemperature`, src/physics/aphysics_defs.hpp:119-122. -/
noncomputable def temperature (rho p : ℝ) : ℝ := p / rho * G.g * G.Minf * G.Minf

/-- `getJacobianTemperature`, src/physics/aphysics_defs.hpp:127-135 (increment). -/
noncomputable def dTemperature (rho p : ℝ) (dp : St) : St :=
  ![G.g * G.Minf * G.Minf * (dp 0 * rho - p) / (rho * rho),
    G.g * G.Minf * G.Minf / rho * dp 1, G.g * G.Minf * G.Minf / rho * dp 2,
    G.g * G.Minf * G.Minf / rho * dp 3]

/-- `getSoundSpeed`, src/physics/aphysics_defs.hpp:140-143. -/
noncomputable def soundSpeed (rho p : ℝ) : ℝ := Real.sqrt (G.g * p / rho)

/-- `getJacobianSoundSpeed`, src/physics/aphysics_defs.hpp:147-154 (increment). -/
noncomputable def dSoundSpeed (rho p : ℝ) (dp : St) (c : ℝ) : St :=
  ![1 / 2 / c * G.g * (dp 0 * rho - p) / (rho * rho), 1 / 2 / c * G.g * dp 1 / rho,
    1 / 2 / c * G.g * dp 2 / rho, 1 / 2 / c * G.g * dp 3 / rho]

/-- `getSoundSpeedFromConserved`, src/physics/aphysics_defs.hpp:160-163. -/
noncomputable def soundSpeedC (uc : St) : ℝ := G.soundSpeed (uc 0) (G.pressure uc)

/-- `getJacobianSoundSpeedWrtConserved`, src/physics/aphysics_defs.hpp:169-180. -/
noncomputable def dSoundSpeedC (uc : St) : St :=
  let p := G.pressure uc
  let c := G.soundSpeed (uc 0) p
  G.dSoundSpeed (uc 0) p (G.dPressure uc) c

/-- `getQuotientDerivatives`, src/mathutils.hpp:83-89 (increment). -/
noncomputable def quotD (f : ℝ) (df : St) (h : ℝ) (dh : St) : St :=
  fun i => (df i * h - f * dh i) / (h * h)

/-- Local derivative row of the normal velocity used in several routines, e.g.
src/physics/aphysics_defs.hpp:193-197 and src/physics/aphysics.cpp:101-106. -/
noncomputable def dVnRow (uc : St) (n : V2) : St :=
  let vn := dot (mom uc) n / uc 0
  ![-vn / uc 0, n 0 / uc 0, n 1 / uc 0, 0]

/-- `getJacobianMachNormalWrtConserved`, src/physics/aphysics_defs.hpp:184-200. -/
noncomputable def dMachNormal (uc : St) (n : V2) : St :=
  let c := G.soundSpeedC uc
  let dc := G.dSoundSpeedC uc
  let vn := dot (mom uc) n / uc 0
  quotD vn (dVnRow uc n) c dc

/-- `getEntropyFromConserved`, src/physics/aphysics_defs.hpp:204-207. -/
noncomputable def entropy (uc : St) : ℝ := G.pressure uc / (uc 0) ^ (G.g)

/-- `getEnergyFromPressure`, src/physics/aphysics_defs.hpp:211-215. -/
noncomputable def energyOfP (p d vmag2 : ℝ) : ℝ := p / (G.g - 1) + 1 / 2 * d * vmag2

/-- `getEnergyFromTemperature`, src/physics/aphysics_defs.hpp:219-223. -/
noncomputable def energyOfT (T d vmag2 : ℝ) : ℝ :=
  d * (T / (G.g * (G.g - 1) * G.Minf * G.Minf) + 1 / 2 * vmag2)

/-- `getJacobianEnergyFromJacobiansTemperatureVmag2`, src/physics/aphysics_defs.hpp:227-236
(increment). -/
noncomputable def dEnergyOfT (T d vmag2 : ℝ) (dT dvmag2 : St) : St :=
  let coeff := 1 / (G.g * (G.g - 1) * G.Minf * G.Minf)
  ![coeff * (T + d * dT 0) + 1 / 2 * (vmag2 + d * dvmag2 0),
    d * (coeff * dT 1 + 1 / 2 * dvmag2 1), d * (coeff * dT 2 + 1 / 2 * dvmag2 2),
    d * (coeff * dT 3 + 1 / 2 * dvmag2 3)]

/-- `getEnergyFromPrimitive`, src/physics/aphysics_defs.hpp:241-244. -/
noncomputable def energyOfPrim (up : St) : ℝ := G.energyOfP (up 3) (up 0) (dot (mom up) (mom up))

/-- `getEnergyFromPrimitive2`, src/physics/aphysics_defs.hpp:248-253. -/
noncomputable def energyOfPrim2 (up : St) : ℝ := G.energyOfT (up 3) (up 0) (dot (mom up) (mom up))

/-- `getPrimitiveFromConserved`, src/physics/aphysics_defs.hpp:259-267, with distinct arrays. -/
noncomputable def primOfCons (uc : St) : St :=
  ![uc 0, uc 1 / uc 0, uc 2 / uc 0, G.pressure uc]

/-- `getPrimitive2FromConserved`, src/physics/aphysics_defs.hpp:273-281, with distinct arrays. -/
noncomputable def prim2OfCons (uc : St) : St :=
  ![uc 0, uc 1 / uc 0, uc 2 / uc 0, G.temperature (uc 0) (G.pressure uc)]

/-- `getConservedFromPrimitive`, src/physics/aphysics_defs.hpp:287-295, with distinct arrays. -/
noncomputable def consOfPrim (up : St) : St :=
  ![up 0, up 0 * up 1, up 0 * up 2, G.energyOfPrim up]

/-- `getDensityFromPressureTemperature`, src/physics/aphysics_defs.hpp:299-303. -/
noncomputable def densityOfPT (p T : ℝ) : ℝ := G.g * G.Minf * G.Minf * p / T

/-- `getJacobianDensityFromJacobiansPressureTemperature`, src/physics/aphysics_defs.hpp:307-313
(increment). -/
noncomputable def dDensityOfPT (p T : ℝ) (dp dT : St) : St :=
  fun i => G.g * G.Minf * G.Minf * (dp i * T - p * dT i) / (T * T)

/-- `getTemperatureFromConserved`, src/physics/aphysics_defs.hpp:319-322. -/
noncomputable def temperatureC (uc : St) : ℝ := G.temperature (uc 0) (G.pressure uc)

/-- `getJacobianTemperatureWrtConserved`, src/physics/aphysics_defs.hpp:328-337. -/
noncomputable def dTemperatureC (uc : St) : St :=
  G.dTemperature (uc 0) (G.pressure uc) (G.dPressure uc)

/-- `getTemperatureFromPrimitive`, src/physics/aphysics_defs.hpp:342-345. -/
noncomputable def temperatureOfPrim (up : St) : ℝ := G.temperature (up 0) (up 3)

/-- `getGradTemperature`, src/physics/aphysics_defs.hpp:349-353. -/
noncomputable def gradTemperature (rho gradrho p gradp : ℝ) : ℝ :=
  (gradp * rho - p * gradrho) / (rho * rho) * G.g * G.Minf * G.Minf

/-- `getGradTemperatureFromConservedAndGradConserved`, src/physics/aphysics_defs.hpp:357-363. -/
noncomputable def gradTemperatureC (uc guc : St) : ℝ :=
  G.gradTemperature (uc 0) (guc 0) (G.pressure uc) (G.gradPressure uc guc)

/-- `getGradTemperatureFromConservedAndGradPrimitive`, src/physics/aphysics_defs.hpp:367-372. -/
noncomputable def gradTemperatureCP (uc gup : St) : ℝ :=
  G.gradTemperature (uc 0) (gup 0) (G.pressure uc) (gup 3)

/-- `getViscosityCoeffFromTemperature`, src/physics/aphysics_defs.hpp:410-413. -/
noncomputable def viscosityT (T : ℝ) : ℝ :=
  (1 + sC / G.Tinf) / (T + sC / G.Tinf) * T ^ (3 / 2 : ℝ) / G.Reinf

/-- `getViscosityCoeffFromConserved`, src/physics/aphysics_defs.hpp:417-421. -/
noncomputable def viscosityC (uc : St) : ℝ := G.viscosityT (G.temperatureC uc)

/-- `getJacobianSutherlandViscosityWrtConserved`, src/physics/aphysics_defs.hpp:425-439
(increment; note the power `-1.5`, as in the code). -/
noncomputable def dViscosityC (uc : St) : St :=
  let T := G.temperatureC uc
  let dT := G.dTemperatureC uc
  let coef := (1 + sC / G.Tinf) / G.Reinf
  let T15 := T ^ (3 / 2 : ℝ)
  let Tm15 := T ^ (-(3 / 2) : ℝ)
  let denom := (T + sC / G.Tinf) * (T + sC / G.Tinf)
  fun i => coef * (3 / 2 * Tm15 * dT i * (T + sC / G.Tinf) - T15 * dT i) / denom

/-- `getConstantViscosityCoeff`, src/physics/aphysics_defs.hpp:443-445. -/
noncomputable def constViscosity : ℝ := 1 / G.Reinf

/-- `getThermalConductivityFromViscosity`, src/physics/aphysics_defs.hpp:449-451. -/
noncomputable def conductivity (mu : ℝ) : ℝ := mu / (G.Minf * G.Minf * (G.g - 1) * G.Pr)

/-- `getJacobianThermCondWrtConservedFromJacobianSutherViscWrtConserved`,
src/physics/aphysics_defs.hpp:456-461. -/
noncomputable def dConductivity (dmu : St) : St :=
  fun k => dmu k / (G.Minf * G.Minf * (G.g - 1) * G.Pr)

/-- `getFreestreamPressure`, src/physics/aphysics_defs.hpp:465-467. -/
noncomputable def freestreamPressure : ℝ := 1 / (G.g * G.Minf * G.Minf)

/-- `getNormalizedFreeStreamVector`, src/mathutils.hpp:67-75 (2D). -/
noncomputable def windVector (aoa beta : ℝ) : V2 :=
  ![Real.cos aoa * Real.cos beta, Real.sin aoa * Real.cos beta]

/-- `compute_freestream_state`, src/physics/aphysics.cpp:44-58. -/
noncomputable def freestream (aoa : ℝ) : St :=
  let wind := windVector aoa 0
  ![1, wind 0, wind 1, G.energyOfP G.freestreamPressure 1 1]

/-- `getDirectionalFluxFromConserved`, src/physics/aphysics.cpp:29-35. -/
noncomputable def eulerFlux (u : St) (n : V2) : St :=
  let vn := dot (mom u) n / u 0
  let p := G.pressureOfInternal (u 3 - 1 / 2 * dot (mom u) (mom u) / u 0)
  dirFlux u n vn p

/-- `getJacobianDirectionalFluxWrtConserved`, src/physics/aphysics.cpp:61-127; row `i` of the
result is `dfdu[i*nvars + ·]`. -/
noncomputable def dEulerFlux (u : St) (n : V2) : Fin 4 → St :=
  let p := G.pressure u
  let dp := G.dPressure u
  let vn := dot (mom u) n / u 0
  let dvn := dVnRow u n
  ![![0, n 0, n 1, 0],
    ![-vn * u 1 / u 0 + dp 0 * n 0, dvn 1 * u 1 + vn + dp 1 * n 0, dvn 2 * u 1 + dp 2 * n 0,
      dp 3 * n 0],
    ![-vn * u 2 / u 0 + dp 0 * n 1, dvn 1 * u 2 + dp 1 * n 1, dvn 2 * u 2 + vn + dp 2 * n 1,
      dp 3 * n 1],
    ![-vn / u 0 * (u 3 + p) + vn * dp 0, n 0 / u 0 * (u 3 + p) + vn * dp 1,
      n 1 / u 0 * (u 3 + p) + vn * dp 2, vn * (1 + dp 3)]]

/-- `getJacobianVarsWrtConserved`, src/physics/aphysics.cpp:131-153: velocity rows
(increments on zeroed arrays). -/
noncomputable def dVelRow (uc : St) : Fin 2 → St :=
  ![![-uc 1 / (uc 0 * uc 0), 1 / uc 0, 0, 0], ![-uc 2 / (uc 0 * uc 0), 0, 1 / uc 0, 0]]

/-- `getJacobianVarsWrtConserved`, src/physics/aphysics.cpp:141-144: normal-velocity row. -/
noncomputable def dVarsVn (uc : St) (n : V2) : St :=
  ![dVelRow uc 0 0 * n 0 + dVelRow uc 1 0 * n 1, n 0 / uc 0, n 1 / uc 0, 0]

/-- `getJacobianVarsWrtConserved`, src/physics/aphysics.cpp:146-152: enthalpy row. -/
noncomputable def dVarsH (uc : St) : St :=
  let p := G.pressure uc
  let dp := G.dPressure uc
  ![(dp 0 * uc 0 - (uc 3 + p)) / (uc 0 * uc 0), dp 1 / uc 0, dp 2 / uc 0, (1 + dp 3) / uc 0]

/-- `getJacobianPrimitive2WrtConserved`, src/physics/aphysics.cpp:156-175 (increment on a zeroed
array). -/
noncomputable def dPrim2 (uc : St) : Fin 4 → St :=
  let r2v2 := dot (mom uc) (mom uc)
  let p := G.pressureOfInternal (uc 3 - 1 / 2 * r2v2 / uc 0)
  let dp := G.dPressure' uc r2v2
  ![![1, 0, 0, 0], ![-uc 1 / (uc 0 * uc 0), 1 / uc 0, 0, 0], ![-uc 2 / (uc 0 * uc 0), 0, 1 / uc 0, 0],
    G.dTemperature (uc 0) p dp]

end Gas

/-- Gradient block `grad[NDIM][NVARS]`. -/
abbrev Gr := Fin 2 → St

/-- Index of velocity component `j` in the array of variables (`j+1`). -/
def vix (j : Fin 2) : Fin 4 := ![1, 2] j

/-- `getStressTensor`, src/physics/aphysics_defs.hpp:471-487. -/
noncomputable def stress (mu : ℝ) (grad : Gr) (i j : Fin 2) : ℝ :=
  let ldiv := 2 / 3 * mu * (grad 0 1 + grad 1 2)
  mu * (grad i (vix j) + grad j (vix i)) - (if i = j then ldiv else 0)

/-- `getJacobianStress`, src/physics/aphysics.cpp:178-215: derivative part. -/
noncomputable def dStress (mu : ℝ) (dmu : St) (grad : Gr) (dgrad : Fin 2 → Fin 4 → St)
    (i j : Fin 2) : St := fun k =>
  let div := grad 0 1 + grad 1 2
  let dldiv := 2 / 3 * (dmu k * div + mu * (dgrad 0 1 k + dgrad 1 2 k))
  dmu k * (grad i (vix j) + grad j (vix i)) + mu * (dgrad i (vix j) k + dgrad j (vix i) k)
    - (if i = j then dldiv else 0)

/-! ### Pointer-level versions of the conversions (aliasing) -/

/-- A heap of scalars; `p + i` is the address of element `i` of the array at `p`. -/
abbrev Heap := ℕ → ℝ

/-- Store. -/
def Heap.set (h : Heap) (a : ℕ) (v : ℝ) : Heap := fun b => if b = a then v else h b

/-- Load of a whole `NVARS` array. -/
def Heap.load (h : Heap) (p : ℕ) : St := fun i => h (p + i.val)

/-- `getPrimitiveFromConserved`, src/physics/aphysics_defs.hpp:259-267, store by store; `uc` and
`up` are addresses. -/
noncomputable def Gas.primOfConsMem (G : Gas) (uc up : ℕ) (h : Heap) : Heap :=
  let h := h.set up (h uc)
  let p := G.pressure (h.load uc)
  let h := h.set (up + 1) (h (uc + 1) / h uc)
  let h := h.set (up + 2) (h (uc + 2) / h uc)
  h.set (up + 3) p

/-- `getPrimitive2FromConserved`, src/physics/aphysics_defs.hpp:273-281, store by store. -/
noncomputable def Gas.prim2OfConsMem (G : Gas) (uc up : ℕ) (h : Heap) : Heap :=
  let h := h.set up (h uc)
  let p := G.pressure (h.load uc)
  let h := h.set (up + 1) (h (uc + 1) / h uc)
  let h := h.set (up + 2) (h (uc + 2) / h uc)
  h.set (up + 3) (G.temperature (h uc) p)

/-- `getConservedFromPrimitive`, src/physics/aphysics_defs.hpp:287-295, store by store. -/
noncomputable def Gas.consOfPrimMem (G : Gas) (up uc : ℕ) (h : Heap) : Heap :=
  let h := h.set uc (h up)
  let rhoE := G.energyOfPrim (h.load up)
  let h := h.set (uc + 1) (h up * h (up + 1))
  let h := h.set (uc + 2) (h up * h (up + 2))
  h.set (uc + 3) rhoE

/-- `getGradPrimitive2FromConservedAndGradConserved`, src/physics/aphysics_defs.hpp:376-406, store
by store; `uc`, `guc`, `gup` are addresses and `guc`, `gup` may be equal. -/
noncomputable def Gas.gradPrim2Mem (G : Gas) (uc guc gup : ℕ) (h : Heap) : Heap :=
  let h := h.set gup (h guc)
  let h := h.set (gup + 1) ((h (guc + 1) * h uc - h (uc + 1) * h guc) / (h uc * h uc))
  let h := h.set (gup + 2) ((h (guc + 2) * h uc - h (uc + 2) * h guc) / (h uc * h uc))
  let p := G.pressure (h.load uc)
  let term1 := h (uc + 1) * h (gup + 1) + h (uc + 2) * h (gup + 2)
  let term2 := h (uc + 1) * h (uc + 1) + h (uc + 2) * h (uc + 2)
  let term2 := term2 * (1 / 2 * h gup / (h uc * h uc))
  let dp := (G.g - 1) * (h (guc + 3) - term2 - term1)
  h.set (gup + 3) (G.gradTemperature (h uc) (h gup) p dp)

end FVENS
