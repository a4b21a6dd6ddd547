import Verif.Phys.Props

/-!
Gradients of temperature from a conserved state and the gradient of the conserved or of the primitive state. Code: src/physics/aphysics_defs.hpp:347-372.
-/

namespace FVENS

/-- C02: along every curve of conserved states the two routines return the derivative of the temperature, one from the derivative of the conserved state, the other from that of
density, velocity and pressure. -/
theorem C02_gradTemperature (G : Gas) (U : ℝ → St) (x : ℝ) (guc gup : St) (hr : U x 0 ≠ 0) (hc : ∀ i, HasDerivAt (fun s => U s i) (guc i) x)
    (hp : ∀ i, HasDerivAt (fun s => G.primOfCons (U s) i) (gup i) x) :
    HasDerivAt (fun s => G.temperatureC (U s)) (G.gradTemperatureC (U x) guc) x ∧
      HasDerivAt (fun s => G.temperatureC (U s)) (G.gradTemperatureCP (U x) gup) x := by
  have h3 := gradPrim2_isGradient G (U x) guc hr U x rfl hc 3
  refine ⟨h3, ?_⟩
  have h0 : HasDerivAt (fun s => U s 0) (gup 0) x := hp 0
  have hq : HasDerivAt (fun s => G.pressure (U s)) (gup 3) x := hp 3
  have hT := (((hq.div h0 hr).mul_const G.g).mul_const G.Minf).mul_const G.Minf
  refine hT.congr_deriv ?_
  simp only [Gas.gradTemperatureCP, Gas.gradTemperature, pow_two]

/-- Gas at rest, the density rising along the line: temperature falls. -/
example : HasDerivAt (fun s : ℝ => air.temperatureC ![1 + s, 0, 0, 1]) (air.gradTemperatureCP ![1, 0, 0, 1] ![1, 0, 0, 0]) 0 := by
  have h1 : HasDerivAt (fun s : ℝ => 1 + s) 1 0 := by simpa using (hasDerivAt_id (0 : ℝ)).const_add 1
  have := (C02_gradTemperature air (fun s => ![1 + s, 0, 0, 1]) 0 ![1, 0, 0, 0] ![1, 0, 0, 0] (by simp) (fun i => by
    fin_cases i
    · simpa using h1
    all_goals simpa using hasDerivAt_const (0 : ℝ) _) (fun i => by
    fin_cases i
    · simpa [Gas.primOfCons] using h1
    all_goals simpa [Gas.primOfCons, Gas.pressure, dot, mom] using hasDerivAt_const (0 : ℝ) _)).2
  simpa using this

/-- C01: the temperature read off the primitive state is that of the conserved state, is the last of the temperature-based primitive variables, and gives the density back together with the
pressure. -/
theorem C01_temperature (G : Gas) (u : St) : G.temperatureOfPrim (G.primOfCons u) = G.temperatureC u ∧ G.prim2OfCons u 3 = G.temperatureOfPrim (G.primOfCons u) ∧
    (u 0 ≠ 0 → G.g ≠ 0 → G.Minf ≠ 0 → G.pressure u ≠ 0 → G.densityOfPT (G.pressure u) (G.temperatureOfPrim (G.primOfCons u)) = u 0) :=
  ⟨rfl, rfl, fun hr hg hM hp => C01_density_of_pressure_temperature G hg hM (u 0) (G.pressure u) hr hp⟩

/-- Air of density 2 and pressure 3 at Mach 1/2: temperature 21/40 by either way. -/
example : air.temperatureOfPrim (air.primOfCons uEx) = 21 / 40 := (C01_temperature air uEx).1.trans air_uEx_T

end FVENS
