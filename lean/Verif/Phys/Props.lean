import Verif.Phys.Model

/-!
# Properties C01 - C07: ideal-gas physics
-/

namespace FVENS

/-- Air with Mach number 1/2, used in the concrete cases. -/
noncomputable def air : Gas := ⟨7 / 5, 1 / 2, 300, 1000, 18 / 25⟩

/-- A concrete admissible state: density 2, momentum (1, 3), energy 10. -/
noncomputable def uEx : St := ![2, 1, 3, 10]

theorem uEx_pressure : air.pressure uEx = 3 := by
  simp [Gas.pressure, Gas.pressureOfInternal, air, uEx, dot, mom]; norm_num

/-! ## C01 -/

/-- C01: conserved → primitive → conserved is the identity. -/
theorem C01_cons_prim_cons (G : Gas) (hg : G.g ≠ 1) (u : St) (hr : u 0 ≠ 0) :
    G.consOfPrim (G.primOfCons u) = u := by
  have hg' : G.g - 1 ≠ 0 := sub_ne_zero.mpr hg
  funext i
  fin_cases i
  · simp [Gas.consOfPrim, Gas.primOfCons]
  · simp [Gas.consOfPrim, Gas.primOfCons]; field_simp
  · simp [Gas.consOfPrim, Gas.primOfCons]; field_simp
  · simp [Gas.consOfPrim, Gas.primOfCons, Gas.energyOfPrim, Gas.energyOfP, Gas.pressure,
      Gas.pressureOfInternal, dot, mom]
    field_simp; ring

/-- C01: primitive → conserved → primitive is the identity. -/
theorem C01_prim_cons_prim (G : Gas) (hg : G.g ≠ 1) (u : St) (hr : u 0 ≠ 0) :
    G.primOfCons (G.consOfPrim u) = u := by
  have hg' : G.g - 1 ≠ 0 := sub_ne_zero.mpr hg
  funext i
  fin_cases i
  · simp [Gas.consOfPrim, Gas.primOfCons]
  · simp [Gas.consOfPrim, Gas.primOfCons]; field_simp
  · simp [Gas.consOfPrim, Gas.primOfCons]; field_simp
  · simp [Gas.consOfPrim, Gas.primOfCons, Gas.energyOfPrim, Gas.energyOfP, Gas.pressure,
      Gas.pressureOfInternal, dot, mom]
    field_simp; ring

/-- C01: the temperature-based primitive state carries the same total energy. -/
theorem C01_prim2_energy (G : Gas) (hg : G.g ≠ 1) (hg0 : G.g ≠ 0) (hM : G.Minf ≠ 0)
    (u : St) (hr : u 0 ≠ 0) :
    G.energyOfPrim2 (G.prim2OfCons u) = u 3 := by
  have hg' : G.g - 1 ≠ 0 := sub_ne_zero.mpr hg
  simp [Gas.prim2OfCons, Gas.energyOfPrim2, Gas.energyOfT, Gas.temperature, Gas.pressure,
      Gas.pressureOfInternal, dot, mom]
  field_simp; ring

/-- C01: density, velocity and temperature recovered from pressure and temperature agree:
`ρ(p, T(ρ,p)) = ρ`. -/
theorem C01_density_of_pressure_temperature (G : Gas) (hg0 : G.g ≠ 0) (hM : G.Minf ≠ 0)
    (rho p : ℝ) (hr : rho ≠ 0) (hp : p ≠ 0) :
    G.densityOfPT p (G.temperature rho p) = rho := by
  simp [Gas.densityOfPT, Gas.temperature]; field_simp

/-- C01: the pressure computed together with normal velocity and enthalpy is the pressure of the
conserved state, and the enthalpy is `(E+p)/ρ`. -/
theorem C01_vars_agree (G : Gas) (u : St) (n : V2) (hr : u 0 ≠ 0) :
    G.varsP u = G.pressure u ∧ G.varsH u = (u 3 + G.pressure u) / u 0 ∧
    Gas.varsVn u n = dot (mom u) n / u 0 := by
  have e : G.varsP u = G.pressure u := by
    simp [Gas.varsP, Gas.pressure, Gas.pressureOfInternal, Gas.vel, dot, mom]; left; field_simp
  refine ⟨e, ?_, ?_⟩
  · simp [Gas.varsH, e]
  · simp [Gas.varsVn, Gas.vel, dot, mom]; ring

example : air.g ≠ 1 ∧ air.g ≠ 0 ∧ air.Minf ≠ 0 ∧ uEx 0 ≠ 0 ∧ air.pressure uEx = 3 ∧
    air.primOfCons uEx = ![2, 1 / 2, 3 / 2, 3] := by
  refine ⟨by norm_num [air], by norm_num [air], by norm_num [air], by simp [uEx], uEx_pressure, ?_⟩
  simp [Gas.primOfCons, uEx_pressure]; simp [uEx]

/-! ## C02 -/

/-- Two 4-element arrays are equal or do not overlap. -/
def SameOrApart (a b : ℕ) : Prop := a = b ∨ a + 4 ≤ b ∨ b + 4 ≤ a

section
variable (G : Gas)

theorem Heap.set_same (h : Heap) (a : ℕ) (v : ℝ) : h.set a v a = v := by simp [Heap.set]
theorem Heap.set_other (h : Heap) {a b : ℕ} (v : ℝ) (hab : b ≠ a) : h.set a v b = h b := by
  simp [Heap.set, hab]

/-- C02: conversion to primitive variables may be done in place. -/
theorem C02_prim_in_place (uc up : ℕ) (h : Heap) (hap : SameOrApart uc up) :
    (G.primOfConsMem uc up h).load up = G.primOfCons (h.load uc) := by
  rcases hap with rfl | hap
  · funext i; fin_cases i <;>
      simp [Gas.primOfConsMem, Gas.primOfCons, Heap.load, Heap.set, Gas.pressure, dot, mom]
  · have e0 : uc ≠ up := by omega
    have e1 : uc + 1 ≠ up := by omega
    have e2 : uc + 2 ≠ up := by omega
    have e3 : uc + 3 ≠ up := by omega
    have f0 : uc ≠ up + 1 := by omega
    have f2 : uc + 2 ≠ up + 1 := by omega
    funext i; fin_cases i <;>
      simp [Gas.primOfConsMem, Gas.primOfCons, Heap.load, Heap.set, Gas.pressure, dot, mom,
        e0, e1, e2, e3, f0, f2]

/-- C02: conversion to density-velocity-temperature variables may be done in place. -/
theorem C02_prim2_in_place (uc up : ℕ) (h : Heap) (hap : SameOrApart uc up) :
    (G.prim2OfConsMem uc up h).load up = G.prim2OfCons (h.load uc) := by
  rcases hap with rfl | hap
  · funext i; fin_cases i <;>
      simp [Gas.prim2OfConsMem, Gas.prim2OfCons, Heap.load, Heap.set, Gas.pressure, dot, mom]
  · have e0 : uc ≠ up := by omega
    have e1 : uc + 1 ≠ up := by omega
    have e2 : uc + 2 ≠ up := by omega
    have e3 : uc + 3 ≠ up := by omega
    have f0 : uc ≠ up + 1 := by omega
    have f2 : uc + 2 ≠ up + 1 := by omega
    have g0 : uc ≠ up + 2 := by omega
    funext i; fin_cases i <;>
      simp [Gas.prim2OfConsMem, Gas.prim2OfCons, Heap.load, Heap.set, Gas.pressure, dot, mom,
        e0, e1, e2, e3, f0, f2, g0]

/-- C02: conversion to conserved variables may be done in place. -/
theorem C02_cons_in_place (up uc : ℕ) (h : Heap) (hap : SameOrApart up uc) :
    (G.consOfPrimMem up uc h).load uc = G.consOfPrim (h.load up) := by
  rcases hap with rfl | hap
  · funext i; fin_cases i <;>
      simp [Gas.consOfPrimMem, Gas.consOfPrim, Heap.load, Heap.set, Gas.energyOfPrim, dot, mom]
  · have e0 : up ≠ uc := by omega
    have e1 : up + 1 ≠ uc := by omega
    have e2 : up + 2 ≠ uc := by omega
    have e3 : up + 3 ≠ uc := by omega
    have f0 : up ≠ uc + 1 := by omega
    have f2 : up + 2 ≠ uc + 1 := by omega
    funext i; fin_cases i <;>
      simp [Gas.consOfPrimMem, Gas.consOfPrim, Heap.load, Heap.set, Gas.energyOfPrim, dot, mom,
        e0, e1, e2, e3, f0, f2]

/-- C02: nothing outside the output array is modified. -/
theorem C02_frame (uc up : ℕ) (h : Heap) (a : ℕ) (ha : a < up ∨ up + 4 ≤ a) :
    G.primOfConsMem uc up h a = h a ∧ G.prim2OfConsMem uc up h a = h a ∧
    G.consOfPrimMem uc up h a = h a ∧ ∀ guc, G.gradPrim2Mem uc guc up h a = h a := by
  have e0 : a ≠ up := by omega
  have e1 : a ≠ up + 1 := by omega
  have e2 : a ≠ up + 2 := by omega
  have e3 : a ≠ up + 3 := by omega
  refine ⟨?_, ?_, ?_, fun guc => ?_⟩ <;>
    simp [Gas.primOfConsMem, Gas.prim2OfConsMem, Gas.consOfPrimMem, Gas.gradPrim2Mem, Heap.set,
      e0, e1, e2, e3]

end

/-- Chain rule specification: if the conserved state varies along a line as `U(x)` with derivative
`guc`, then `D` is the derivative of the density-velocity-temperature state. -/
def IsPrim2Gradient (G : Gas) (u guc D : St) : Prop :=
  ∀ (U : ℝ → St) (x : ℝ), U x = u → (∀ i, HasDerivAt (fun s => U s i) (guc i) x) →
    ∀ i, HasDerivAt (fun s => G.prim2OfCons (U s) i) (D i) x

theorem gradPrim2_isGradient (G : Gas) (u guc : St) (hr : u 0 ≠ 0) :
    IsPrim2Gradient G u guc
      ![guc 0, (guc 1 * u 0 - u 1 * guc 0) / (u 0 * u 0), (guc 2 * u 0 - u 2 * guc 0) / (u 0 * u 0),
        G.gradTemperature (u 0) (guc 0) (G.pressure u) (G.gradPressure u guc)] := by
  intro U x hU hd i
  subst hU
  have h0 := hd 0; have h1 := hd 1; have h2 := hd 2; have h3 := hd 3
  fin_cases i
  · simpa [Gas.prim2OfCons] using h0
  · have := h1.div h0 hr
    simp only [Gas.prim2OfCons]
    refine this.congr_deriv ?_
    simp; ring
  · have := h2.div h0 hr
    simp only [Gas.prim2OfCons]
    refine this.congr_deriv ?_
    simp; ring
  · have hm : HasDerivAt (fun s => dot (mom (U s)) (mom (U s)))
        (2 * (U x 1 * guc 1 + U x 2 * guc 2)) x := by
      refine ((h1.mul h1).add (h2.mul h2)).congr_deriv ?_
      ring
    have hp : HasDerivAt (fun s => G.pressure (U s)) (G.gradPressure (U x) guc) x := by
      refine (((h3.sub ((hm.const_mul (1/2)).div h0 hr)).const_mul (G.g - 1))).congr_deriv ?_
      simp [Gas.gradPressure, dot, mom]; left; field_simp
    have hT := (((hp.div h0 hr).mul_const G.g).mul_const G.Minf).mul_const G.Minf
    refine hT.congr_deriv ?_
    simp only [Gas.gradTemperature, pow_two]; rfl

/-- C02: the gradient conversion is right for separate arrays and for in-place use (the state must
not overlap the gradients). -/
theorem C02_grad_in_place (G : Gas) (uc guc gup : ℕ) (h : Heap) (hr : h uc ≠ 0)
    (hap : SameOrApart guc gup) (hu : gup + 4 ≤ uc ∨ uc + 4 ≤ gup) :
    IsPrim2Gradient G (h.load uc) (h.load guc) ((G.gradPrim2Mem uc guc gup h).load gup) := by
  have e0 : uc ≠ gup := by omega
  have e1 : uc + 1 ≠ gup := by omega
  have e2 : uc + 2 ≠ gup := by omega
  have e3 : uc + 3 ≠ gup := by omega
  have f0 : uc ≠ gup + 1 := by omega
  have f2 : uc + 2 ≠ gup + 1 := by omega
  have f3 : uc + 3 ≠ gup + 1 := by omega
  have g0 : uc ≠ gup + 2 := by omega
  have g3 : uc + 3 ≠ gup + 2 := by omega
  have key : (G.gradPrim2Mem uc guc gup h).load gup =
      ![h guc, (h (guc + 1) * h uc - h (uc + 1) * h guc) / (h uc * h uc),
        (h (guc + 2) * h uc - h (uc + 2) * h guc) / (h uc * h uc),
        G.gradTemperature (h uc) (h guc) (G.pressure (h.load uc))
          (G.gradPressure (h.load uc) (h.load guc))] := by
    rcases hap with rfl | hap
    · funext i; fin_cases i
      · simp [Gas.gradPrim2Mem, Heap.load, Heap.set]
      · simp [Gas.gradPrim2Mem, Heap.load, Heap.set, e0, e1]
      · simp [Gas.gradPrim2Mem, Heap.load, Heap.set, e0, e2, f0, f2]
      · simp [Gas.gradPrim2Mem, Heap.load, Heap.set, e0, e1, e2, e3, f0, f2, f3, g0, g3,
          Gas.pressure, Gas.gradPressure, dot, mom]
        congr 1
        congr 1
        field_simp; ring
    · have k0 : guc ≠ gup := by omega
      have k1 : guc + 1 ≠ gup := by omega
      have k2 : guc + 2 ≠ gup := by omega
      have k3 : guc + 3 ≠ gup := by omega
      have l0 : guc ≠ gup + 1 := by omega
      have l2 : guc + 2 ≠ gup + 1 := by omega
      have l3 : guc + 3 ≠ gup + 1 := by omega
      have m3 : guc + 3 ≠ gup + 2 := by omega
      funext i; fin_cases i
      · simp [Gas.gradPrim2Mem, Heap.load, Heap.set]
      · simp [Gas.gradPrim2Mem, Heap.load, Heap.set, e0, e1, k0, k1]
      · simp [Gas.gradPrim2Mem, Heap.load, Heap.set, e0, e2, f0, f2, k0, k2, l0, l2]
      · simp [Gas.gradPrim2Mem, Heap.load, Heap.set, e0, e1, e2, e3, f0, f2, f3, g0, g3,
          k0, k1, k2, k3, l0, l2, l3, m3, Gas.pressure, Gas.gradPressure, dot, mom]
        congr 1
        congr 1
        field_simp; ring
  rw [key]
  exact gradPrim2_isGradient G (h.load uc) (h.load guc) hr

example : SameOrApart 8 8 ∧ SameOrApart 0 4 ∧ ¬ SameOrApart 0 1 ∧
    (air.primOfConsMem 0 0 (fun i => if i = 0 then 2 else if i = 1 then 1 else if i = 2 then 3 else 10)).load 0
      = ![2, 1 / 2, 3 / 2, 3] := by
  refine ⟨by simp [SameOrApart], by simp [SameOrApart], by simp [SameOrApart], ?_⟩
  rw [C02_prim_in_place _ _ _ _ (Or.inl rfl)]
  have : (Heap.load (fun i => if i = 0 then 2 else if i = 1 then 1 else if i = 2 then 3 else 10) 0 : St)
      = uEx := by funext i; fin_cases i <;> simp [Heap.load, uEx]
  rw [this]; simp [Gas.primOfCons, uEx_pressure]; simp [uEx]

/-! ## C03: derivative routines -/

section derivs
variable (G : Gas) (u : St)

theorem hasGrad_mom2 : HasGrad (fun v => dot (mom v) (mom v)) ![0, 2 * u 1, 2 * u 2, 0] u := by
  refine (((HasGrad.coord 1).mul (HasGrad.coord 1)).add
    ((HasGrad.coord 2).mul (HasGrad.coord 2)) : HasGrad _ _ u).congr ?_
  funext i; fin_cases i <;> simp <;> ring

/-- C03: pressure derivative. -/
theorem C03_pressure (hr : u 0 ≠ 0) : HasGrad G.pressure (G.dPressure u) u := by
  refine (((HasGrad.coord 3).sub (((hasGrad_mom2 u).cmul (1/2)).div (HasGrad.coord 0) hr)).cmul
    (G.g - 1) : HasGrad _ _ u).congr ?_
  funext i; fin_cases i <;> simp [Gas.dPressure, dot, mom] <;> field_simp <;> ring

/-- C03: the overload of the pressure derivative taking `|ρv|²` is right when given that value. -/
theorem C03_pressure_overload (hr : u 0 ≠ 0) :
    HasGrad G.pressure (G.dPressure' u (dot (mom u) (mom u))) u :=
  C03_pressure G u hr

/-- C03: derivative of the squared speed. -/
theorem C03_vmag2 (hr : u 0 ≠ 0) :
    HasGrad (fun v => dot (Gas.vel v) (Gas.vel v)) (Gas.dVmag2 u) u := by
  have h1 := (HasGrad.coord 1 (u := u)).div (HasGrad.coord 0) hr
  have h2 := (HasGrad.coord 2 (u := u)).div (HasGrad.coord 0) hr
  refine ((h1.mul h1).add (h2.mul h2)).congr ?_
  funext i; fin_cases i <;> simp [Gas.dVmag2, dot, mom] <;> field_simp <;> ring

/-- C03: temperature derivative. -/
theorem C03_temperature (hr : u 0 ≠ 0) : HasGrad G.temperatureC (G.dTemperatureC u) u := by
  have h1 := (C03_pressure G u hr).div (HasGrad.coord 0) hr
  have h2 := ((h1.mul (HasGrad.const G.g)).mul (HasGrad.const G.Minf)).mul (HasGrad.const G.Minf)
  refine h2.congr ?_
  funext i; fin_cases i <;> simp [Gas.dTemperatureC, Gas.dTemperature] <;> field_simp

/-- C03: sound-speed derivative. -/
theorem C03_soundSpeed (hg : 0 < G.g) (hr : 0 < u 0) (hp : 0 < G.pressure u) :
    HasGrad G.soundSpeedC (G.dSoundSpeedC u) u := by
  have hq : 0 < G.g * G.pressure u / u 0 := by positivity
  have h1 := ((C03_pressure G u hr.ne').cmul G.g).div (HasGrad.coord 0) hr.ne'
  have h2 := h1.sqrt hq.ne'
  have hs : 0 < Real.sqrt (G.g * G.pressure u / u 0) := Real.sqrt_pos.mpr hq
  have hr' := hr.ne'
  refine h2.congr ?_
  funext i; fin_cases i <;>
    simp [Gas.dSoundSpeedC, Gas.dSoundSpeed, Gas.soundSpeed] <;> field_simp

theorem hasGrad_vn (n : V2) (hr : u 0 ≠ 0) :
    HasGrad (fun v => dot (mom v) n / v 0) (Gas.dVnRow u n) u := by
  have h1 : HasGrad (fun v => dot (mom v) n) ![0, n 0, n 1, 0] u := by
    refine (((HasGrad.coord 1).mul (HasGrad.const (n 0))).add
      ((HasGrad.coord 2).mul (HasGrad.const (n 1))) : HasGrad _ _ u).congr ?_
    funext i; fin_cases i <;> simp
  refine (h1.div (HasGrad.coord 0) hr).congr ?_
  funext i; fin_cases i <;> simp [Gas.dVnRow, dot, mom] <;> field_simp <;> ring

/-- C03: derivative of the normal Mach number. -/
theorem C03_machNormal (n : V2) (hg : 0 < G.g) (hr : 0 < u 0) (hp : 0 < G.pressure u) :
    HasGrad (fun v => dot (mom v) n / v 0 / G.soundSpeedC v) (G.dMachNormal u n) u := by
  have hq : 0 < G.g * G.pressure u / u 0 := by positivity
  have hs : G.soundSpeedC u ≠ 0 := (Real.sqrt_pos.mpr hq).ne'
  refine ((hasGrad_vn u n hr.ne').div (C03_soundSpeed G u hg hr hp) hs).congr ?_
  funext i; simp [Gas.dMachNormal, Gas.quotD, pow_two]

/-- C03: energy from temperature, density and squared speed, along any differentiable dependence
of temperature and squared speed on the state (density is `u[0]`). -/
theorem C03_energyOfT (T w : St → ℝ) (dT dw : St) (hT : HasGrad T dT u) (hw : HasGrad w dw u) :
    HasGrad (fun v => G.energyOfT (T v) (v 0) (w v)) (G.dEnergyOfT (T u) (u 0) (w u) dT dw) u := by
  have h1 := (hT.mul (HasGrad.const (1 / (G.g * (G.g - 1) * G.Minf * G.Minf)))).add (hw.cmul (1/2))
  have h2 := (HasGrad.coord 0 (u := u)).mul h1
  have e : (fun v => G.energyOfT (T v) (v 0) (w v)) =
      fun v => v 0 * (T v * (1 / (G.g * (G.g - 1) * G.Minf * G.Minf)) + 1 / 2 * w v) := by
    funext v; simp only [Gas.energyOfT, div_eq_mul_inv]; ring
  rw [e]
  refine h2.congr ?_
  funext i; fin_cases i <;> simp only [Gas.dEnergyOfT] <;> simp [-mul_eq_mul_left_iff] <;> ring

/-- C03: density from pressure and temperature, along any differentiable dependence. -/
theorem C03_densityOfPT (p T : St → ℝ) (dp dT : St) (hp : HasGrad p dp u) (hT : HasGrad T dT u)
    (h0 : T u ≠ 0) :
    HasGrad (fun v => G.densityOfPT (p v) (T v)) (G.dDensityOfPT (p u) (T u) dp dT) u := by
  refine ((hp.cmul (G.g * G.Minf * G.Minf)).div hT h0).congr ?_
  funext i; simp [Gas.dDensityOfPT]; field_simp

/-- C03: every row of the Jacobian of the density-velocity-temperature state. -/
theorem C03_prim2 (hr : u 0 ≠ 0) (i : Fin 4) :
    HasGrad (fun v => G.prim2OfCons v i) (G.dPrim2 u i) u := by
  fin_cases i
  · refine (HasGrad.coord 0 (u := u)).congr ?_
    funext i; fin_cases i <;> simp [Gas.dPrim2]
  · refine ((HasGrad.coord 1 (u := u)).div (HasGrad.coord 0) hr).congr ?_
    funext i; fin_cases i <;> simp [Gas.dPrim2] <;> field_simp
  · refine ((HasGrad.coord 2 (u := u)).div (HasGrad.coord 0) hr).congr ?_
    funext i; fin_cases i <;> simp [Gas.dPrim2] <;> field_simp
  · exact C03_temperature G u hr

/-- C03: velocity, normal velocity and enthalpy rows of the combined routine. -/
theorem C03_vars (n : V2) (hr : u 0 ≠ 0) :
    (∀ j, HasGrad (fun v => Gas.vel v j) (Gas.dVelRow u j) u) ∧
    HasGrad (fun v => Gas.varsVn v n) (Gas.dVarsVn u n) u ∧
    HasGrad (fun v => (v 3 + G.pressure v) / v 0) (G.dVarsH u) u := by
  have h1 := (HasGrad.coord 1 (u := u)).div (HasGrad.coord 0) hr
  have h2 := (HasGrad.coord 2 (u := u)).div (HasGrad.coord 0) hr
  refine ⟨fun j => ?_, ?_, ?_⟩
  · fin_cases j
    · refine h1.congr ?_
      funext i; fin_cases i <;> simp [Gas.dVelRow] <;> field_simp
    · refine h2.congr ?_
      funext i; fin_cases i <;> simp [Gas.dVelRow] <;> field_simp
  · refine ((h1.mul (HasGrad.const (n 0))).add (h2.mul (HasGrad.const (n 1)))).congr ?_
    funext i; fin_cases i <;> simp [Gas.dVarsVn, Gas.dVelRow] <;> field_simp
  · refine (((HasGrad.coord 3).add (C03_pressure G u hr)).div (HasGrad.coord 0) hr).congr ?_
    funext i; fin_cases i <;> simp [Gas.dVarsH] <;> field_simp

/-- C03: every row of the flux Jacobian is the derivative of that component of the analytical
flux. -/
theorem C03_eulerFlux (n : V2) (hr : u 0 ≠ 0) (i : Fin 4) :
    HasGrad (fun v => G.eulerFlux v n i) (G.dEulerFlux u n i) u := by
  have hvn := hasGrad_vn u n hr
  have hp := C03_pressure G u hr
  fin_cases i
  · refine (hvn.mul (HasGrad.coord 0)).congr ?_
    funext i; fin_cases i <;> simp [Gas.dEulerFlux, Gas.dVnRow, dot, mom] <;> field_simp <;> ring
  · refine ((hvn.mul (HasGrad.coord 1)).add (hp.mul (HasGrad.const (n 0)))).congr ?_
    funext i; fin_cases i <;> simp [Gas.dEulerFlux, Gas.dVnRow, dot, mom] <;> field_simp
  · refine ((hvn.mul (HasGrad.coord 2)).add (hp.mul (HasGrad.const (n 1)))).congr ?_
    funext i; fin_cases i <;> simp [Gas.dEulerFlux, Gas.dVnRow, dot, mom] <;> field_simp
  · refine (hvn.mul ((HasGrad.coord 3).add hp)).congr ?_
    funext i; fin_cases i <;> simp [Gas.dEulerFlux, Gas.dVnRow, dot, mom] <;> field_simp

end derivs

example : 0 < air.g ∧ 0 < uEx 0 ∧ 0 < air.pressure uEx ∧ dot (mom uEx) ![3/5, 4/5] = 3 ∧
    air.dPressure uEx = ![1/2, -1/5, -3/5, 2/5] := by
  refine ⟨by norm_num [air], by norm_num [uEx], by rw [uEx_pressure]; norm_num,
    by simp [dot, mom, uEx]; norm_num, ?_⟩
  funext i; fin_cases i <;> simp [Gas.dPressure, air, uEx, dot, mom] <;> norm_num

/-! ## C04: Sutherland viscosity -/

/-- True derivative of the Sutherland viscosity (specification side: obtained from the viscosity
itself by the chain rule). -/
theorem viscosity_hasGrad (G : Gas) (u : St) (hr : u 0 ≠ 0) (hT : 0 < G.temperatureC u)
    (hTi : 0 < G.Tinf) :
    HasGrad G.viscosityC (fun i =>
      (1 + sC / G.Tinf) / G.Reinf *
      (3 / 2 * (G.temperatureC u) ^ (1 / 2 : ℝ) * G.dTemperatureC u i * (G.temperatureC u + sC / G.Tinf)
        - (G.temperatureC u) ^ (3 / 2 : ℝ) * G.dTemperatureC u i)
      / ((G.temperatureC u + sC / G.Tinf) * (G.temperatureC u + sC / G.Tinf))) u := by
  have hsC : 0 < sC := by norm_num [sC]
  have hden : G.temperatureC u + sC / G.Tinf ≠ 0 := by positivity
  have hTg := C03_temperature G u hr
  have h1 := ((HasGrad.const (1 + sC / G.Tinf)).div (hTg.add (HasGrad.const (sC / G.Tinf))) hden)
  have h2 := (h1.mul (hTg.rpow (3/2) hT.ne')).mul (HasGrad.const (1 / G.Reinf))
  have e : G.viscosityC = fun v => (1 + sC / G.Tinf) / (G.temperatureC v + sC / G.Tinf)
      * G.temperatureC v ^ (3 / 2 : ℝ) * (1 / G.Reinf) := by
    funext v; simp only [Gas.viscosityC, Gas.viscosityT]; ring
  rw [e]
  refine h2.congr ?_
  funext i
  simp only [Pi.zero_apply]
  have e2 : ((3:ℝ) / 2 - 1) = 1 / 2 := by norm_num
  rw [e2]
  field_simp
  ring

/-- C04 (partial): the returned derivative is right where the temperature is the free-stream one.
Missing for the full claim: all other temperatures, see `C04_refuted`. -/
theorem C04_sutherland_partial (G : Gas) (u : St) (hr : u 0 ≠ 0) (hT : G.temperatureC u = 1)
    (hTi : 0 < G.Tinf) : HasGrad G.viscosityC (G.dViscosityC u) u := by
  refine (viscosity_hasGrad G u hr (by rw [hT]; norm_num) hTi).congr ?_
  funext i
  simp [Gas.dViscosityC, hT]

/-- C04 refuted: wherever the temperature is positive, different from 1, and varies with the state
(always with the energy), the returned row is not the derivative of the viscosity. -/
theorem C04_refuted (G : Gas) (u : St) (hr : 0 < u 0) (hT : 0 < G.temperatureC u)
    (hT1 : G.temperatureC u ≠ 1) (hTi : 0 < G.Tinf) (hg : 1 < G.g) (hM : G.Minf ≠ 0)
    (hRe : G.Reinf ≠ 0) : ¬ HasGrad G.viscosityC (G.dViscosityC u) u := by
  intro h
  have hu := (viscosity_hasGrad G u hr.ne' hT hTi).unique h
  have h3 := congrFun hu 3
  have hsC : 0 < sC := by norm_num [sC]
  have hcoef : (1 + sC / G.Tinf) / G.Reinf ≠ 0 := by
    have : (1 + sC / G.Tinf) ≠ 0 := by positivity
    exact div_ne_zero this hRe
  have hden : 0 < G.temperatureC u + sC / G.Tinf := by positivity
  have hdT : G.dTemperatureC u 3 ≠ 0 := by
    simp only [Gas.dTemperatureC, Gas.dTemperature, Gas.dPressure]
    have : G.g - 1 ≠ 0 := by linarith
    have hg0 : G.g ≠ 0 := by linarith
    have hr' := hr.ne'
    simp; refine ⟨⟨⟨hg0, hM⟩, hr'⟩, this⟩
  simp only [Gas.dViscosityC] at h3
  set T := G.temperatureC u
  have hpow : T ^ (1/2 : ℝ) = T ^ (-(3/2) : ℝ) := by
    have h4 : T ^ (1/2 : ℝ) * G.dTemperatureC u 3 * (T + sC / G.Tinf)
      = T ^ (-(3/2) : ℝ) * G.dTemperatureC u 3 * (T + sC / G.Tinf) := by
      rw [div_left_inj' (by positivity)] at h3
      have := mul_left_cancel₀ hcoef h3
      linarith
    exact mul_right_cancel₀ hdT (mul_right_cancel₀ hden.ne' h4)
  have h5 : T ^ (2:ℝ) = 1 := by
    have : T ^ (2:ℝ) = T ^ (1/2 : ℝ) * T ^ (3/2 : ℝ) := by
      rw [← Real.rpow_add hT]; norm_num
    rw [this, hpow, ← Real.rpow_add hT]; norm_num
  rw [Real.rpow_two] at h5
  have : (T - 1) * (T + 1) = 0 := by nlinarith
  rcases mul_eq_zero.mp this with h | h
  · exact hT1 (by linarith)
  · linarith

theorem air_uEx_T : air.temperatureC uEx = 21/40 := by
  simp [Gas.temperatureC, Gas.temperature, uEx_pressure]; simp [uEx, air]; norm_num

/-- Concrete case of the refutation. -/
example : ¬ HasGrad air.viscosityC (air.dViscosityC uEx) uEx :=
  C04_refuted air uEx (by norm_num [uEx]) (by rw [air_uEx_T]; norm_num) (by rw [air_uEx_T]; norm_num)
    (by norm_num [air]) (by norm_num [air]) (by norm_num [air]) (by norm_num [air])

/-- Concrete case of the partial theorem: a state of temperature 1. -/
example : air.temperatureC ![2, 1, 3, 235/14] = 1 := by
  simp [Gas.temperatureC, Gas.temperature, Gas.pressure, Gas.pressureOfInternal, air, dot, mom]
  norm_num

/-! ## C05: pressure increment -/

/-- The kinetic-energy terms of the exact pressure increment. -/
noncomputable def kinTerm (u du : St) (i : Fin 4) : ℝ :=
  (u i + du i) ^ 2 * u 0 - (u i) ^ 2 * (u 0 + du 0)

/-- C05 (partial): the value returned is the true increment plus an explicit error; missing for the
full claim is that the error vanishes, which is false (`C05_refuted`). -/
theorem C05_deltaPressure_partial (G : Gas) (u du : St) (h0 : u 0 ≠ 0) (h1 : u 0 + du 0 ≠ 0) :
    G.deltaPressure u du = G.pressure (u + du) - G.pressure u
      + (G.g - 1) / (2 * u 0 * (u 0 + du 0)) *
        (kinTerm u du 1 + 2 * kinTerm u du 2 + kinTerm u du 3) := by
  simp only [Gas.deltaPressure, Gas.deltaPTerm, Gas.pressure, Gas.pressureOfInternal, kinTerm, dot,
    mom, Pi.add_apply, Matrix.cons_val_zero, Matrix.cons_val_one]
  field_simp
  ring

/-- C05: exact characterisation of the updates for which the returned increment is right. -/
theorem C05_deltaPressure_correct_iff (G : Gas) (hg : G.g ≠ 1) (u du : St) (h0 : u 0 ≠ 0)
    (h1 : u 0 + du 0 ≠ 0) :
    G.deltaPressure u du = G.pressure (u + du) - G.pressure u ↔
      kinTerm u du 1 + 2 * kinTerm u du 2 + kinTerm u du 3 = 0 := by
  rw [C05_deltaPressure_partial G u du h0 h1]
  have hg' : (G.g - 1) / (2 * u 0 * (u 0 + du 0)) ≠ 0 := by
    have : G.g - 1 ≠ 0 := sub_ne_zero.mpr hg
    positivity
  constructor
  · intro h
    have : (G.g - 1) / (2 * u 0 * (u 0 + du 0)) *
        (kinTerm u du 1 + 2 * kinTerm u du 2 + kinTerm u du 3) = 0 := by linarith
    exact (mul_eq_zero.mp this).resolve_left hg'
  · intro h; rw [h]; ring

/-- C05 refuted: for fluid at rest and a pure energy (heating) update the result is wrong: there
are an admissible state and an admissible update for which a wrong increment is returned. -/
theorem C05_refuted : ∃ (u du : St), 0 < u 0 ∧ 0 < u 0 + du 0 ∧ 0 < air.pressure u ∧
    0 < air.pressure (u + du) ∧
    air.deltaPressure u du ≠ air.pressure (u + du) - air.pressure u := by
  refine ⟨![1, 0, 0, 5/2], ![0, 0, 0, 5/2], by norm_num, by norm_num, ?_, ?_, ?_⟩
  · simp [Gas.pressure, Gas.pressureOfInternal, air, dot, mom]; norm_num
  · simp [Gas.pressure, Gas.pressureOfInternal, air, dot, mom]; norm_num
  · rw [Ne, C05_deltaPressure_correct_iff _ (by norm_num [air]) _ _ (by norm_num) (by norm_num)]
    simp [kinTerm]; norm_num

/-! ## C06: free stream -/

/-- C06: density 1, velocity of magnitude 1 along the angle of attack, pressure `1/(γM²)`,
temperature 1 and sound speed `1/M` (so the Mach number is `M`). -/
theorem C06_freestream (G : Gas) (hg : 1 < G.g) (hM : 0 < G.Minf) (aoa : ℝ) :
    G.freestream aoa 0 = 1 ∧
    Gas.vel (G.freestream aoa) = ![Real.cos aoa, Real.sin aoa] ∧
    dot (Gas.vel (G.freestream aoa)) (Gas.vel (G.freestream aoa)) = 1 ∧
    G.pressure (G.freestream aoa) = 1 / (G.g * G.Minf ^ 2) ∧
    G.temperatureC (G.freestream aoa) = 1 ∧
    G.soundSpeedC (G.freestream aoa) = 1 / G.Minf := by
  have hg0 : G.g ≠ 0 := by linarith
  have hg1 : G.g - 1 ≠ 0 := by linarith
  have hM0 := hM.ne'
  have hcs : Real.cos aoa * Real.cos aoa + Real.sin aoa * Real.sin aoa = 1 := by
    have := Real.cos_sq_add_sin_sq aoa; nlinarith
  have hp : G.pressure (G.freestream aoa) = 1 / (G.g * G.Minf ^ 2) := by
    simp [Gas.pressure, Gas.pressureOfInternal, Gas.freestream, Gas.windVector, Gas.energyOfP,
      Gas.freestreamPressure, dot, mom, hcs]
    field_simp
  have h0 : G.freestream aoa 0 = 1 := by simp [Gas.freestream]
  refine ⟨h0, ?_, ?_, hp, ?_, ?_⟩
  · simp [Gas.vel, Gas.freestream, Gas.windVector]
  · simp [Gas.vel, Gas.freestream, Gas.windVector, dot, hcs]
  · simp only [Gas.temperatureC, Gas.temperature, hp, h0]; field_simp
  · simp only [Gas.soundSpeedC, Gas.soundSpeed, hp, h0]
    have : G.g * (1 / (G.g * G.Minf ^ 2)) / 1 = (1 / G.Minf) ^ 2 := by field_simp
    rw [this, Real.sqrt_sq (by positivity)]

example : 1 < air.g ∧ 0 < air.Minf ∧ air.soundSpeedC (air.freestream (Real.pi / 6)) = 2 := by
  refine ⟨by norm_num [air], by norm_num [air], ?_⟩
  have h := (C06_freestream air (by norm_num [air]) (by norm_num [air]) (Real.pi / 6)).2.2.2.2.2
  rw [h]; norm_num [air]

/-! ## C07: stress -/

/-- C07: symmetry. -/
theorem C07_symmetric (mu : ℝ) (g : Gr) (i j : Fin 2) : stress mu g i j = stress mu g j i := by
  simp only [stress, eq_comm (a := j)]; ring

/-- C07: no stress in rigid-body motion, whatever the density/temperature gradients. -/
theorem C07_rigid_rotation (mu om : ℝ) (g : Gr) (h11 : g 0 1 = 0) (h12 : g 1 1 = -om)
    (h21 : g 0 2 = om) (h22 : g 1 2 = 0) (i j : Fin 2) : stress mu g i j = 0 := by
  fin_cases i <;> fin_cases j <;> simp [stress, vix, h11, h12, h21, h22]

/-- C07: the trace is `(2/3) μ div v` (Stokes hypothesis for a plane flow). -/
theorem C07_trace (mu : ℝ) (g : Gr) :
    stress mu g 0 0 + stress mu g 1 1 = 2 / 3 * mu * (g 0 1 + g 1 2) := by
  simp [stress, vix]; ring

/-- C07: the stress does non-negative work on the velocity gradient (viscous dissipation). -/
theorem C07_dissipative (mu : ℝ) (hmu : 0 ≤ mu) (g : Gr) :
    0 ≤ ∑ i : Fin 2, ∑ j : Fin 2, stress mu g i j * g i (vix j) := by
  simp only [Fin.sum_univ_two]
  have : stress mu g 0 0 * g 0 (vix 0) + stress mu g 0 1 * g 0 (vix 1)
      + (stress mu g 1 0 * g 1 (vix 0) + stress mu g 1 1 * g 1 (vix 1))
      = mu * ((g 0 2 + g 1 1) ^ 2 + (g 0 1 - g 1 2) ^ 2 + 1 / 3 * (g 0 1 + g 1 2) ^ 2) := by
    simp [stress, vix]; ring
  rw [this]; positivity

/-- C07: linearity in the velocity gradient. -/
theorem C07_linear (mu a b : ℝ) (g h : Gr) (i j : Fin 2) :
    stress mu (fun k v => a * g k v + b * h k v) i j = a * stress mu g i j + b * stress mu h i j := by
  by_cases e : i = j <;> simp [stress, e] <;> ring

/-- Velocity gradient seen in axes rotated by the matrix `Q` (`G' = Q G Qᵀ`). -/
def rotGrad (Q : Fin 2 → Fin 2 → ℝ) (g : Gr) : Gr := fun i =>
  ![g i 0, ∑ k, ∑ l, Q i k * g k (vix l) * Q 0 l, ∑ k, ∑ l, Q i k * g k (vix l) * Q 1 l, g i 3]

/-- C07: frame indifference: in rotated axes the stress is the rotated stress. -/
theorem C07_frame_indifferent (mu c s : ℝ) (g : Gr) (i j : Fin 2) :
    let Q : Fin 2 → Fin 2 → ℝ := ![![c, s], ![-s, c]]
    stress mu (rotGrad Q g) i j = ∑ k, ∑ l, Q i k * stress mu g k l * Q j l := by
  intro Q
  fin_cases i <;> fin_cases j <;>
    simp [stress, vix, rotGrad, Q, Fin.sum_univ_two] <;> ring

/-- C07: the derivative of the stress is the one returned, for any differentiable viscosity and
gradients. -/
theorem C07_stress_jacobian (mu : St → ℝ) (dmu : St) (grad : St → Gr)
    (dgrad : Fin 2 → Fin 4 → St) (u : St) (hmu : HasGrad mu dmu u)
    (hgr : ∀ d v, HasGrad (fun w => grad w d v) (dgrad d v) u) (i j : Fin 2) :
    HasGrad (fun w => stress (mu w) (grad w) i j) (dStress (mu u) dmu (grad u) dgrad i j) u := by
  have h1 := hmu.mul ((hgr i (vix j)).add (hgr j (vix i)))
  have h2 := (hmu.cmul (2/3)).mul ((hgr 0 1).add (hgr 1 2))
  by_cases e : i = j
  · subst e
    simp only [stress, if_true]
    refine (h1.sub h2).congr ?_
    funext k; simp only [dStress, if_true]; ring
  · simp only [stress, if_neg e]
    refine (h1.sub (HasGrad.const 0)).congr ?_
    funext k; simp only [dStress, if_neg e, Pi.zero_apply]

example : stress 2 ![![0, 1, 0, 0], ![0, 3, 0, 0]] 0 0 = 8 / 3 ∧
    stress 2 ![![0, 1, 0, 0], ![0, 3, 0, 0]] 0 1 = 6 := by
  constructor <;> simp [stress, vix] <;> norm_num

end FVENS
