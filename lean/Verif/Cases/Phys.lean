import Verif.Phys.Transport
import Verif.Flux.Basic

/-!
Concrete cases of the theorems on the gas model (`Phys/*`): every theorem with hypotheses is applied to air
(`γ = 7/5`, `M∞ = 1/2`) and to the moving state `uEx = (2, 1, 3, 10)` of pressure 3, or as written.
-/

namespace FVENS.Cases

open FVENS

theorem g1 : air.g ≠ 1 := by norm_num [air]
theorem g0 : air.g ≠ 0 := by norm_num [air]
theorem gp : 0 < air.g := by norm_num [air]
theorem M0 : air.Minf ≠ 0 := by norm_num [air]
theorem r0 : uEx 0 ≠ 0 := by norm_num [uEx]
theorem rp : 0 < uEx 0 := by norm_num [uEx]
theorem pp : 0 < air.pressure uEx := by rw [uEx_pressure]; norm_num

/-! ## C01 -/

example : air.consOfPrim (air.primOfCons uEx) = uEx := C01_cons_prim_cons air g1 uEx r0
example : air.primOfCons (air.consOfPrim uEx) = uEx := C01_prim_cons_prim air g1 uEx r0
example : air.energyOfPrim2 (air.prim2OfCons uEx) = 10 := (C01_prim2_energy air g1 g0 M0 uEx r0).trans (by simp [uEx])
example : air.densityOfPT 3 (air.temperature 2 3) = 2 :=
  C01_density_of_pressure_temperature air g0 M0 2 3 (by norm_num) (by norm_num)
example : air.varsP uEx = 3 ∧ air.varsH uEx = 13 / 2 ∧ Gas.varsVn uEx ![3/5, 4/5] = 3 / 2 := by
  obtain ⟨h, h', h''⟩ := C01_vars_agree air uEx ![3/5, 4/5] r0
  rw [h, h', h'', uEx_pressure]
  refine ⟨rfl, ?_, ?_⟩ <;> simp [uEx, dot, mom] <;> norm_num

/-! ## C02: in place at address 8, and from address 0 to address 4 -/

example (h : Heap) : (air.prim2OfConsMem 8 8 h).load 8 = air.prim2OfCons (h.load 8) :=
  C02_prim2_in_place air 8 8 h (by simp [SameOrApart])
example (h : Heap) : (air.consOfPrimMem 0 4 h).load 4 = air.consOfPrim (h.load 0) :=
  C02_cons_in_place air 0 4 h (by simp [SameOrApart])
example (h : Heap) : air.primOfConsMem 0 4 h 8 = h 8 := (C02_frame air 0 4 h 8 (by norm_num)).1
example : IsPrim2Gradient air (Heap.load (fun a => (a : ℝ) + 1) 8) (Heap.load (fun a => (a : ℝ) + 1) 0)
    (Heap.load (air.gradPrim2Mem 8 0 0 (fun a => (a : ℝ) + 1)) 0) :=
  C02_grad_in_place air 8 0 0 (fun a => (a : ℝ) + 1) (by norm_num) (by simp [SameOrApart]) (by norm_num)

/-! ## C03 -/

example := C03_pressure air uEx r0
example := C03_pressure_overload air uEx r0
example := C03_vmag2 uEx r0
example := C03_temperature air uEx r0
example := C03_soundSpeed air uEx gp rp pp
example := C03_machNormal air uEx ![3/5, 4/5] gp rp pp
example := C03_prim2 air uEx r0
example := C03_vars air uEx ![3/5, 4/5] r0
example := C03_eulerFlux air uEx ![3/5, 4/5] r0
/-- energy from the temperature and the speed, both as functions of the conserved state -/
example := C03_energyOfT air uEx _ _ _ _ (C03_temperature air uEx r0) (C03_vmag2 uEx r0)
/-- density from pressure and temperature, both as functions of the conserved state -/
example := C03_densityOfPT air uEx _ _ _ _ (C03_pressure air uEx r0) (C03_temperature air uEx r0)
  (by rw [air_uEx_T]; norm_num)

/-! ## C04, C05 -/

example : HasGrad air.viscosityC (air.dViscosityC ![2, 1, 3, 235/14]) ![2, 1, 3, 235/14] :=
  C04_sutherland_partial air _ (by norm_num) (by
    simp [Gas.temperatureC, Gas.temperature, Gas.pressure, Gas.pressureOfInternal, air, dot, mom]; norm_num)
    (by norm_num [air])
example : air.viscosityT 1 < air.viscosityT 2 :=
  C04_sutherland_mono air (by norm_num [air]) (by norm_num [air]) (by norm_num) (by norm_num)

/-- adding density and energy to gas at rest in a proportion for which the pressure difference is right -/
example : air.deltaPressure ![1, 0, 0, 10] ![3, 0, 0, 10] =
    air.pressure (![1, 0, 0, 10] + ![3, 0, 0, 10]) - air.pressure ![1, 0, 0, 10] :=
  (C05_deltaPressure_correct_iff air g1 _ _ (by norm_num) (by norm_num)).2 (by simp [kinTerm]; norm_num)
/-- speeding up moving gas: it is not -/
example : air.deltaPressure uEx ![0, 1, 0, 0] ≠ air.pressure (uEx + ![0, 1, 0, 0]) - air.pressure uEx := by
  rw [ne_eq, C05_deltaPressure_correct_iff air g1 _ _ r0 (by norm_num [uEx])]
  simp [kinTerm, uEx]; norm_num
example := C05_deltaPressure_partial air uEx ![1, 1, 0, 0] r0 (by norm_num [uEx])

/-! ## C07 -/

example := C07_dissipative 2 (by norm_num) ![![0, 1, 0, 0], ![0, 3, 0, 0]]
example := C07_rigid_rotation 2 3 ![![0, 0, 3, 0], ![0, -3, 0, 0]] (by simp) (by simp) (by simp) (by simp)
/-- the gradients proportional to the state, the viscosity proportional to the density -/
example (i j : Fin 2) := C07_stress_jacobian (fun w => w 0) _ (fun w _ => w) (fun _ _ => _) uEx
  (HasGrad.coord 0) (fun _ v => HasGrad.coord v) i j

end FVENS.Cases
