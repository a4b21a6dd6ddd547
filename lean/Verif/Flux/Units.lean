import Verif.Flux.Props

/-!
# Units of mass and time (C99): gas relations and inviscid fluxes

A change of the units of density and velocity multiplies states and fluxes by fixed factors.
-/

namespace FVENS

/-- A change of units: densities are multiplied by `a`, velocities by `b`; lengths and temperatures keep their units. -/
structure Units where
  a : ℝ
  b : ℝ
  ha : 0 < a
  hb : 0 < b

namespace Units
variable (T : Units)

/-- Factors of density, momentum density (two components) and energy density. -/
def st (u : St) : St := ![T.a * u 0, T.a * T.b * u 1, T.a * T.b * u 2, T.a * T.b ^ 2 * u 3]
/-- Fluxes of these: one more factor of velocity. -/
def fl (f : St) : St := ![T.a * T.b * f 0, T.a * T.b ^ 2 * f 1, T.a * T.b ^ 2 * f 2, T.a * T.b ^ 3 * f 3]
/-- Parameters of the gas: the reference velocity is not converted, so that the free-stream Mach number (reference velocity over reference sound speed) is divided
by the factor of velocity, and the Reynolds number by that of density times velocity. -/
noncomputable def gas (G : Gas) : Gas := { G with Minf := G.Minf / T.b, Reinf := G.Reinf / (T.a * T.b) }

@[simp] theorem st_0 (u : St) : T.st u 0 = T.a * u 0 := rfl
@[simp] theorem st_1 (u : St) : T.st u 1 = T.a * T.b * u 1 := rfl
@[simp] theorem st_2 (u : St) : T.st u 2 = T.a * T.b * u 2 := rfl
@[simp] theorem st_3 (u : St) : T.st u 3 = T.a * T.b ^ 2 * u 3 := rfl
@[simp] theorem fl_0 (u : St) : T.fl u 0 = T.a * T.b * u 0 := rfl
@[simp] theorem fl_1 (u : St) : T.fl u 1 = T.a * T.b ^ 2 * u 1 := rfl
@[simp] theorem fl_2 (u : St) : T.fl u 2 = T.a * T.b ^ 2 * u 2 := rfl
@[simp] theorem fl_3 (u : St) : T.fl u 3 = T.a * T.b ^ 3 * u 3 := rfl
@[simp] theorem gas_g (G : Gas) : (T.gas G).g = G.g := rfl

theorem fl_eq (f : St) (v : Fin 4) : T.fl f v = T.b * T.st f v := by fin_cases v <;> simp <;> ring

/-! ### Gas relations -/

section
variable (G : Gas) (u : St) (n : V2)

theorem vel_st : Gas.vel (T.st u) = fun d => T.b * Gas.vel u d := by
  have := T.ha.ne'
  funext d
  fin_cases d
  · show T.a * T.b * u 1 / (T.a * u 0) = T.b * (u 1 / u 0)
    rw [mul_assoc, mul_div_mul_left _ _ this, mul_div_assoc]
  · show T.a * T.b * u 2 / (T.a * u 0) = T.b * (u 2 / u 0)
    rw [mul_assoc, mul_div_mul_left _ _ this, mul_div_assoc]

theorem vn_st : Gas.varsVn (T.st u) n = T.b * Gas.varsVn u n := by
  unfold Gas.varsVn; rw [vel_st]; unfold dot; ring

theorem vv_st : dot (Gas.vel (T.st u)) (Gas.vel (T.st u)) = T.b ^ 2 * dot (Gas.vel u) (Gas.vel u) := by
  rw [vel_st]; unfold dot; ring

theorem p_st : (T.gas G).varsP (T.st u) = T.a * T.b ^ 2 * G.varsP u := by
  unfold Gas.varsP; rw [vv_st]; simp only [st_0, st_3, gas_g]; ring

theorem h_st : (T.gas G).varsH (T.st u) = T.b ^ 2 * G.varsH u := by
  unfold Gas.varsH; rw [p_st]; simp only [st_0, st_3]
  rw [← mul_add, mul_assoc, mul_div_mul_left _ _ T.ha.ne', mul_div_assoc]

theorem sound_st (r p : ℝ) : (T.gas G).soundSpeed (T.a * r) (T.a * T.b ^ 2 * p) = T.b * G.soundSpeed r p := by
  unfold Gas.soundSpeed
  rw [gas_g, show G.g * (T.a * T.b ^ 2 * p) = T.a * (T.b ^ 2 * (G.g * p)) by ring, mul_div_mul_left _ _ T.ha.ne', mul_div_assoc, Real.sqrt_mul (by positivity),
    Real.sqrt_sq T.hb.le]

theorem c_st : Flux.cSide (T.gas G) (T.st u) = T.b * Flux.cSide G u := by
  unfold Flux.cSide; rw [p_st, st_0, sound_st]

theorem mom_st : mom (T.st u) = fun d => T.a * T.b * mom u d := by
  funext d; fin_cases d <;> rfl

theorem mvn_st : dot (mom (T.st u)) n / T.st u 0 = T.b * (dot (mom u) n / u 0) := by
  rw [mom_st, st_0, show dot (fun d => T.a * T.b * mom u d) n = T.a * (T.b * dot (mom u) n) by unfold dot; ring, mul_div_mul_left _ _ T.ha.ne', mul_div_assoc]

theorem mm_st : dot (mom (T.st u)) (mom (T.st u)) = T.a * (T.a * T.b ^ 2) * dot (mom u) (mom u) := by
  rw [mom_st]; unfold dot; ring

theorem pressure_st : (T.gas G).pressure (T.st u) = T.a * T.b ^ 2 * G.pressure u := by
  unfold Gas.pressure Gas.pressureOfInternal
  rw [mm_st, st_0, st_3, gas_g, show 1 / 2 * (T.a * (T.a * T.b ^ 2) * dot (mom u) (mom u)) = T.a * (T.a * T.b ^ 2 * (1 / 2 * dot (mom u) (mom u))) by ring,
    mul_div_mul_left _ _ T.ha.ne']
  ring

theorem soundC_st : (T.gas G).soundSpeedC (T.st u) = T.b * G.soundSpeedC u := by
  unfold Gas.soundSpeedC; rw [pressure_st, st_0, sound_st]

theorem dir_st (vn p : ℝ) : Gas.dirFlux (T.st u) n (T.b * vn) (T.a * T.b ^ 2 * p) = T.fl (Gas.dirFlux u n vn p) := by
  funext v; fin_cases v <;> simp [Gas.dirFlux] <;> ring

theorem euler_st : (T.gas G).eulerFlux (T.st u) n = T.fl (G.eulerFlux u n) := by
  have h := T.pressure_st G u
  unfold Gas.pressure at h
  unfold Gas.eulerFlux
  simp only [mvn_st, h]
  exact T.dir_st u n _ _

end

/-! ### Comparisons of scaled quantities -/

theorem lt_mul (x y : ℝ) : T.b * x < T.b * y ↔ x < y := mul_lt_mul_iff_right₀ T.hb
theorem le_mul (x y : ℝ) : T.b * x ≤ T.b * y ↔ x ≤ y := mul_le_mul_iff_right₀ T.hb
theorem pos_mul (x : ℝ) : 0 < T.b * x ↔ 0 < x := mul_pos_iff_of_pos_left T.hb
theorem nonpos_mul (x : ℝ) : T.b * x ≤ 0 ↔ x ≤ 0 := by rw [← T.le_mul x 0, mul_zero]
theorem nonneg_mul (x : ℝ) : 0 ≤ T.b * x ↔ 0 ≤ x := by rw [← T.le_mul 0 x, mul_zero]
theorem ite_lt (x y z w : ℝ) : (if T.b * x < T.b * y then T.b * z else T.b * w) = T.b * (if x < y then z else w) := by
  simp only [T.lt_mul]; split_ifs <;> rfl
theorem abs_mul' (x : ℝ) : |T.b * x| = T.b * |x| := by rw [abs_mul, abs_of_pos T.hb]
theorem div_mul' (x y : ℝ) : T.b * x / (T.b * y) = x / y := mul_div_mul_left _ _ T.hb.ne'

end Units

namespace Flux
variable (T : Units) (G : Gas) (ul ur : St) (n : V2)

theorem llf_st : llf (T.gas G) (T.st ul) (T.st ur) n = T.fl (llf G ul ur n) := by
  unfold llf llfEig
  simp only [T.vn_st, T.c_st, T.abs_mul', ← mul_add, T.euler_st, gt_iff_lt, T.ite_lt]
  generalize (if |Gas.varsVn ur n| + cSide G ur < |Gas.varsVn ul n| + cSide G ul then |Gas.varsVn ul n| + cSide G ul else |Gas.varsVn ur n| + cSide G ur) = e
  funext v
  fin_cases v <;> simp <;> ring

theorem vlPlus_st (u : St) (vn p c : ℝ) : vlPlus G.g (T.st u) n (T.b * vn) (T.a * T.b ^ 2 * p) (T.b * c) = T.fl (vlPlus G.g u n vn p c) := by
  have h1 := congrFun (T.vel_st u) 0
  have h2 := congrFun (T.vel_st u) 1
  change T.st u 1 / T.st u 0 = T.b * (u 1 / u 0) at h1
  change T.st u 2 / T.st u 0 = T.b * (u 2 / u 0) at h2
  unfold vlPlus
  simp only [T.div_mul', h1, h2]
  by_cases c1 : vn / c < -1
  · rw [if_pos c1, if_pos c1]; funext v; fin_cases v <;> simp
  · rw [if_neg c1, if_neg c1]
    by_cases c2 : vn / c > 1
    · rw [if_pos c2, if_pos c2]; exact T.dir_st u n vn p
    · rw [if_neg c2, if_neg c2]
      funext v; fin_cases v <;> simp <;> ring

theorem vlMinus_st (u : St) (vn p c : ℝ) : vlMinus G.g (T.st u) n (T.b * vn) (T.a * T.b ^ 2 * p) (T.b * c) = T.fl (vlMinus G.g u n vn p c) := by
  have h1 := congrFun (T.vel_st u) 0
  have h2 := congrFun (T.vel_st u) 1
  change T.st u 1 / T.st u 0 = T.b * (u 1 / u 0) at h1
  change T.st u 2 / T.st u 0 = T.b * (u 2 / u 0) at h2
  unfold vlMinus
  simp only [T.div_mul', h1, h2]
  by_cases c1 : vn / c > 1
  · rw [if_pos c1, if_pos c1]; funext v; fin_cases v <;> simp
  · rw [if_neg c1, if_neg c1]
    by_cases c2 : vn / c < -1
    · rw [if_pos c2, if_pos c2]; exact T.dir_st u n vn p
    · rw [if_neg c2, if_neg c2]
      funext v; fin_cases v <;> simp <;> ring

theorem vanLeer_st : vanLeer (T.gas G) (T.st ul) (T.st ur) n = T.fl (vanLeer G ul ur n) := by
  unfold vanLeer
  simp only [T.gas_g, T.vn_st, T.p_st, T.c_st, vlPlus_st, vlMinus_st]
  funext v; fin_cases v <;> simp <;> ring

theorem ausm_st : ausm (T.gas G) (T.st ul) (T.st ur) n = T.fl (ausm G ul ur n) := by
  have hl : ∀ M p : ℝ, ausmPL M (T.a * T.b ^ 2 * p) = T.a * T.b ^ 2 * ausmPL M p := fun M p => by unfold ausmPL; split_ifs <;> ring
  have hr : ∀ M p : ℝ, ausmPR M (T.a * T.b ^ 2 * p) = T.a * T.b ^ 2 * ausmPR M p := fun M p => by unfold ausmPR; split_ifs <;> ring
  unfold ausm
  simp only [T.vn_st, T.p_st, T.c_st, T.div_mul', hl, hr]
  funext v; fin_cases v <;> simp [ausmCore] <;> ring

theorem ausmpC_st : ausmpCOf (T.gas G) (T.st ul) (T.st ur) n = T.b * ausmpCOf G ul ur n := by
  have hc : ∀ c w : ℝ, critC G.g (T.b * c) (T.b ^ 2 * w) = T.b * critC G.g c w := fun c w => by
    unfold critC
    rw [show (T.b * c * (T.b * c) / (G.g - 1) + 1 / 2 * (T.b ^ 2 * w)) * 2 * (G.g - 1) / (G.g + 1) = T.b ^ 2 * ((c * c / (G.g - 1) + 1 / 2 * w) * 2 * (G.g - 1) / (G.g + 1)) by ring,
      Real.sqrt_mul (by positivity), Real.sqrt_sq T.hb.le]
  have hq : ∀ x y : ℝ, T.b * x * (T.b * x) / (T.b * y) = T.b * (x * x / y) := fun x y => by
    rw [mul_assoc, T.div_mul', show x * (T.b * x) = T.b * (x * x) by ring, mul_div_assoc]
  unfold ausmpCOf ausmpC
  simp only [T.gas_g, T.vn_st, T.c_st, T.vv_st, hc, ← mul_neg, gt_iff_lt, T.ite_lt, hq]

theorem ausmPlus_st : ausmPlus (T.gas G) (T.st ul) (T.st ur) n = T.fl (ausmPlus G ul ur n) := by
  have hl : ∀ M p : ℝ, ausmpPL M (T.a * T.b ^ 2 * p) = T.a * T.b ^ 2 * ausmpPL M p := fun M p => by unfold ausmpPL; split_ifs <;> ring
  have hr : ∀ M p : ℝ, ausmpPR M (T.a * T.b ^ 2 * p) = T.a * T.b ^ 2 * ausmpPR M p := fun M p => by unfold ausmpPR; split_ifs <;> ring
  unfold ausmPlus
  simp only [T.vn_st, T.p_st, ausmpC_st, T.div_mul', hl, hr]
  funext v; fin_cases v <;> simp [ausmpCore] <;> ring

/-- Averages in other units. -/
noncomputable def Avg.inUnits (a : Avg) : Avg := ⟨a.R, T.a * a.rho, fun d => T.b * a.v d, T.b ^ 2 * a.vm2, T.b * a.vn, T.b ^ 2 * a.H, T.b * a.c⟩

theorem roeOf_st : roeOf (T.gas G) (T.st ul) (T.st ur) n = Avg.inUnits T (roeOf G ul ur n) := by
  have hR : T.a * ur 0 / (T.a * ul 0) = ur 0 / ul 0 := mul_div_mul_left _ _ T.ha.ne'
  have hv : ∀ R x y : ℝ, (R * (T.b * x) + T.b * y) / (R + 1) = T.b * ((R * x + y) / (R + 1)) := fun R x y => by ring
  have hH : ∀ R x y : ℝ, (R * (T.b ^ 2 * x) + T.b ^ 2 * y) / (R + 1) = T.b ^ 2 * ((R * x + y) / (R + 1)) := fun R x y => by ring
  have hd : ∀ x y : ℝ, dot (![T.b * x, T.b * y] : V2) ![T.b * x, T.b * y] = T.b ^ 2 * dot ![x, y] ![x, y] := fun x y => by simp [dot]; ring
  have hs : ∀ g x y : ℝ, √((g - 1) * (T.b ^ 2 * x - T.b ^ 2 * y * (1 / 2))) = T.b * √((g - 1) * (x - y * (1 / 2))) := fun g x y => by
    rw [show (g - 1) * (T.b ^ 2 * x - T.b ^ 2 * y * (1 / 2)) = T.b ^ 2 * ((g - 1) * (x - y * (1 / 2))) by ring, Real.sqrt_mul (by positivity), Real.sqrt_sq T.hb.le]
  unfold roeOf roeAvg Avg.inUnits
  simp only [T.st_0, hR, T.vel_st, T.h_st, T.gas_g, hv, hH, hd, hs, Avg.mk.injEq, true_and, and_true]
  refine ⟨by ring, ?_, ?_⟩
  · funext d; fin_cases d <;> rfl
  · simp [dot]; ring

theorem harten_st (d l : ℝ) : harten (T.b * d) (T.b * l) = T.b * harten d l := by
  unfold harten
  rw [show (T.b * l * (T.b * l) + T.b * d * (T.b * d)) / (2 * (T.b * d)) = T.b * ((l * l + d * d) / (2 * d)) by
    rw [show T.b * l * (T.b * l) + T.b * d * (T.b * d) = T.b * (T.b * (l * l + d * d)) by ring, show 2 * (T.b * d) = T.b * (2 * d) by ring, T.div_mul', mul_div_assoc]]
  exact T.ite_lt _ _ _ _

theorem roeL_st (a : Avg) (k : Fin 4) : roeL (Avg.inUnits T a) k = T.b * roeL a k := by
  have h0 : ∀ k, roeL0 (Avg.inUnits T a) k = T.b * roeL0 a k := fun k => by
    fin_cases k <;> simp [roeL0, Avg.inUnits, ← mul_sub, ← mul_add, T.abs_mul']
  unfold roeL
  rw [h0, show fixeps * (Avg.inUnits T a).c = T.b * (fixeps * a.c) by simp only [Avg.inUnits]; ring, harten_st]

theorem roe_st : roe (T.gas G) (T.st ul) (T.st ur) n = T.fl (roe G ul ur n) := by
  have hc : ∀ l dep rho c devn : ℝ, T.b * l * (T.a * T.b ^ 2 * dep - T.a * rho * (T.b * c) * (T.b * devn)) / (2 * (T.b * c) * (T.b * c)) =
      T.a * T.b * (l * (dep - rho * c * devn) / (2 * c * c)) := fun l dep rho c devn => by
    rw [show T.b * l * (T.a * T.b ^ 2 * dep - T.a * rho * (T.b * c) * (T.b * devn)) = T.b ^ 2 * (T.a * T.b * (l * (dep - rho * c * devn))) by ring,
      show 2 * (T.b * c) * (T.b * c) = T.b ^ 2 * (2 * c * c) by ring, mul_div_mul_left _ _ (pow_ne_zero 2 T.hb.ne'), mul_div_assoc]
  have hc' : ∀ l dep rho c devn : ℝ, T.b * l * (T.a * T.b ^ 2 * dep + T.a * rho * (T.b * c) * (T.b * devn)) / (2 * (T.b * c) * (T.b * c)) =
      T.a * T.b * (l * (dep + rho * c * devn) / (2 * c * c)) := fun l dep rho c devn => by
    rw [show T.b * l * (T.a * T.b ^ 2 * dep + T.a * rho * (T.b * c) * (T.b * devn)) = T.b ^ 2 * (T.a * T.b * (l * (dep + rho * c * devn))) by ring,
      show 2 * (T.b * c) * (T.b * c) = T.b ^ 2 * (2 * c * c) by ring, mul_div_mul_left _ _ (pow_ne_zero 2 T.hb.ne'), mul_div_assoc]
  have hd : ∀ dep c : ℝ, T.a * T.b ^ 2 * dep / (T.b * c * (T.b * c)) = T.a * (dep / (c * c)) := fun dep c => by
    rw [show T.a * T.b ^ 2 * dep = T.b ^ 2 * (T.a * dep) by ring, show T.b * c * (T.b * c) = T.b ^ 2 * (c * c) by ring, mul_div_mul_left _ _ (pow_ne_zero 2 T.hb.ne'), mul_div_assoc]
  have hla : ∀ (a : Avg) (dep devn dr : ℝ) (k : Fin 4), roeLA (Avg.inUnits T a) (roeL (Avg.inUnits T a)) (T.a * T.b ^ 2 * dep) (T.b * devn) (T.a * dr) k =
      T.a * T.b * roeLA a (roeL a) dep devn dr k := fun a dep devn dr k => by
    unfold roeLA
    simp only [roeL_st]
    fin_cases k <;> simp only [Avg.inUnits, hc, hc', hd, Fin.zero_eta, Fin.mk_one, Fin.reduceFinMk, Matrix.cons_val_zero, Matrix.cons_val_one, Matrix.cons_val] <;> ring
  unfold roe
  simp only [T.vn_st, T.p_st, T.vel_st, roeOf_st, ← mul_sub, T.dir_st, T.st_0]
  generalize roeOf G ul ur n = a
  unfold roeADU
  simp only [hla]
  generalize roeLA a (roeL a) (G.varsP ur - G.varsP ul) (Gas.varsVn ur n - Gas.varsVn ul n) (ur 0 - ul 0) = la
  funext v
  fin_cases v <;> simp [Avg.inUnits] <;> ring

theorem sl_st : slOf (T.gas G) (T.st ul) (T.st ur) n = T.b * slOf G ul ur n := by
  unfold slOf waveL
  simp only [T.vn_st, T.c_st, roeOf_st, Avg.inUnits, ← mul_sub, gt_iff_lt, T.ite_lt]

theorem sr_st : srOf (T.gas G) (T.st ul) (T.st ur) n = T.b * srOf G ul ur n := by
  unfold srOf waveR
  simp only [T.vn_st, T.c_st, roeOf_st, Avg.inUnits, ← mul_add, T.ite_lt]

theorem hll_st : hll (T.gas G) (T.st ul) (T.st ur) n = T.fl (hll G ul ur n) := by
  have hm : ∀ x : ℝ, (if T.b * x > 0 then 0 else T.b * x) = T.b * (if x > 0 then 0 else x) := fun x => by
    simp only [gt_iff_lt, T.pos_mul]; split_ifs <;> simp
  have h1 : ∀ x y : ℝ, hllT1 (T.b * x) (T.b * y) = hllT1 x y := fun x y => by
    unfold hllT1
    rw [hm, hm, ← mul_sub, ← mul_sub, T.div_mul']
  have h3 : ∀ x y : ℝ, hllT3 (T.b * x) (T.b * y) = T.b * hllT3 x y := fun x y => by
    unfold hllT3
    rw [T.abs_mul', T.abs_mul', ← mul_sub, show 1 / 2 * (T.b * y * (T.b * |x|) - T.b * x * (T.b * |y|)) = T.b * (T.b * (1 / 2 * (y * |x| - x * |y|))) by ring, T.div_mul', mul_div_assoc]
  unfold hll
  simp only [T.vn_st, T.p_st, T.h_st, sl_st, sr_st, h1, h3]
  funext v
  fin_cases v <;> simp [hllCore] <;> ring

theorem star_st (u : St) (vn p ss sm : ℝ) : Flux.star (T.st u) n (T.b * vn) (T.a * T.b ^ 2 * p) (T.b * ss) (T.b * sm) = T.st (Flux.star u n vn p ss sm) := by
  have hd : ∀ x : ℝ, T.b * x / (T.b * ss - T.b * sm) = x / (ss - sm) := fun x => by rw [← mul_sub, T.div_mul']
  funext v
  fin_cases v
  · show T.a * u 0 * (T.b * ss - T.b * vn) / (T.b * ss - T.b * sm) = T.a * (u 0 * (ss - vn) / (ss - sm))
    rw [← mul_div_assoc, ← hd]
    congr 1; ring
  · show ((T.b * ss - T.b * vn) * (T.a * T.b * u 1) + (T.a * u 0 * (T.b * vn - T.b * ss) * (T.b * vn - T.b * sm) + T.a * T.b ^ 2 * p - T.a * T.b ^ 2 * p) * n 0) /
      (T.b * ss - T.b * sm) = T.a * T.b * (((ss - vn) * u 1 + (u 0 * (vn - ss) * (vn - sm) + p - p) * n 0) / (ss - sm))
    rw [← mul_div_assoc, ← hd]
    congr 1; ring
  · show ((T.b * ss - T.b * vn) * (T.a * T.b * u 2) + (T.a * u 0 * (T.b * vn - T.b * ss) * (T.b * vn - T.b * sm) + T.a * T.b ^ 2 * p - T.a * T.b ^ 2 * p) * n 1) /
      (T.b * ss - T.b * sm) = T.a * T.b * (((ss - vn) * u 2 + (u 0 * (vn - ss) * (vn - sm) + p - p) * n 1) / (ss - sm))
    rw [← mul_div_assoc, ← hd]
    congr 1; ring
  · show ((T.b * ss - T.b * vn) * (T.a * T.b ^ 2 * u 3) - T.a * T.b ^ 2 * p * (T.b * vn) + (T.a * u 0 * (T.b * vn - T.b * ss) * (T.b * vn - T.b * sm) + T.a * T.b ^ 2 * p) * (T.b * sm)) /
      (T.b * ss - T.b * sm) = T.a * T.b ^ 2 * (((ss - vn) * u 3 - p * vn + (u 0 * (vn - ss) * (vn - sm) + p) * sm) / (ss - sm))
    rw [← mul_div_assoc, ← hd]
    congr 1; ring

theorem sm_st : smOf (T.gas G) (T.st ul) (T.st ur) n = T.b * smOf G ul ur n := by
  have := T.ha.ne'
  have := T.hb.ne'
  unfold smOf contact
  simp only [T.vn_st, T.p_st, sl_st, sr_st, T.st_0]
  generalize slOf G ul ur n = sl
  generalize srOf G ul ur n = sr
  generalize Gas.varsVn ul n = vi
  generalize Gas.varsVn ur n = vj
  generalize G.varsP ul = pi
  generalize G.varsP ur = pj
  rw [show T.a * ur 0 * (T.b * vj) * (T.b * sr - T.b * vj) - T.a * ul 0 * (T.b * vi) * (T.b * sl - T.b * vi) + T.a * T.b ^ 2 * pi - T.a * T.b ^ 2 * pj =
      (T.a * T.b) * (T.b * (ur 0 * vj * (sr - vj) - ul 0 * vi * (sl - vi) + pi - pj)) by ring,
    show T.a * ur 0 * (T.b * sr - T.b * vj) - T.a * ul 0 * (T.b * sl - T.b * vi) = (T.a * T.b) * (ur 0 * (sr - vj) - ul 0 * (sl - vi)) by ring,
    mul_div_mul_left _ _ (by positivity), mul_div_assoc]

theorem hllc_st : hllc (T.gas G) (T.st ul) (T.st ur) n = T.fl (hllc G ul ur n) := by
  have hs : ∀ (s : ℝ) (f w u : St), (fun i => T.fl f i + T.b * s * (T.st w i - T.st u i)) = T.fl (fun i => f i + s * (w i - u i)) := fun s f w u => by
    funext v; fin_cases v <;> simp <;> ring
  unfold hllc hllcCore
  simp only [T.vn_st, T.p_st, sl_st, sr_st, sm_st, T.dir_st, star_st, gt_iff_lt, ge_iff_le, T.pos_mul, T.nonpos_mul, T.nonneg_mul, hs]
  split_ifs <;> rfl

/-- C99, numerical fluxes of all schemes, for all states: in other units they are the same fluxes. -/
theorem C99_flux (k : Scheme) : k.flux (T.gas G) (T.st ul) (T.st ur) n = T.fl (k.flux G ul ur n) := by
  cases k
  · exact llf_st T G ul ur n
  · exact vanLeer_st T G ul ur n
  · exact ausm_st T G ul ur n
  · exact ausmPlus_st T G ul ur n
  · exact roe_st T G ul ur n
  · exact hll_st T G ul ur n
  · exact hllc_st T G ul ur n

end Flux
end FVENS
