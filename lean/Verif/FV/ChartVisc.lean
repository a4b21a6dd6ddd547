import Verif.Flux.ChartJac
import Verif.FV.CopyJac

/-!
# Viscous blocks and boundary blocks in another chart (C104)
-/

namespace FVENS

open Flux FV FV.Disc

/-- Gases in two charts: the Mach number refers to the unit of velocity. -/
structure Chart.GasIm (χ : Chart) (G G' : Gas) : Prop where
  g : G'.g = G.g
  mach : χ.b * G'.Minf = G.Minf
  temp : G'.Tinf = G.Tinf
  pr : G'.Pr = G.Pr

namespace Chart
variable (χ : Chart)

/-- Row of a block times a vector. -/
noncomputable def ap (g x : St) : ℝ := ∑ k, g k * x k

theorem ap4 (g x : St) : ap g x = g 0 * x 0 + g 1 * x 1 + g 2 * x 2 + g 3 * x 3 := by unfold ap; rw [Fin.sum_univ_four]

/-- Image of density, velocity and temperature. -/
def tp (u : St) : St := ![χ.a * u 0, χ.b * (χ.c * u 1 - χ.e * χ.s * u 2), χ.b * (χ.s * u 1 + χ.e * χ.c * u 2), u 3]

/-- Image of gradients of these. -/
noncomputable def grIm (L : ℝ) (g : Gr) : Gr := fun j i => χ.dir (fun d => χ.tp (g d) i) j / L

/-- Image of a tensor. -/
def tens (S : Fin 2 → Fin 2 → ℝ) (i j : Fin 2) : ℝ := χ.dir (fun q => χ.dir (fun p => S p q) i) j

theorem stress_im {L : ℝ} (hL : L ≠ 0) (mu : ℝ) (g : Gr) (i j : Fin 2) :
    stress (χ.a * χ.b * L * mu) (χ.grIm L g) i j = χ.a * χ.b ^ 2 * χ.tens (stress mu g) i j := by
  have hu := χ.unit
  have hf := χ.flip
  have htr : χ.grIm L g 0 1 + χ.grIm L g 1 2 = χ.b / L * (g 0 1 + g 1 2) := by
    simp only [grIm, dir_0, dir_1]
    simp [tp]
    field_simp
    linear_combination χ.b * (g 0 1 + χ.e ^ 2 * g 1 2) * hu + χ.b * g 1 2 * hf
  unfold stress
  rw [htr]
  have h1 : ∀ x : ℝ, χ.a * χ.b * L * (x / L) = χ.a * χ.b * x := fun x => by field_simp
  have h2 : 2 / 3 * (χ.a * χ.b * L * mu) * (χ.b / L * (g 0 1 + g 1 2)) = χ.a * χ.b ^ 2 * (2 / 3 * mu * (g 0 1 + g 1 2)) := by field_simp
  rw [h2]
  generalize 2 / 3 * mu * (g 0 1 + g 1 2) = d
  fin_cases i <;> fin_cases j <;> simp [grIm, tens, dir, vix, tp] <;> field_simp
  · linear_combination (d * (χ.a * χ.b ^ 2)) * hu + d * (χ.a * χ.b ^ 2) * χ.s ^ 2 * hf
  · linear_combination (-d * (χ.a * χ.b ^ 2) * χ.c * χ.s) * hf
  · linear_combination (-d * (χ.a * χ.b ^ 2) * χ.c * χ.s) * hf
  · linear_combination (d * (χ.a * χ.b ^ 2)) * hu + d * (χ.a * χ.b ^ 2) * χ.c ^ 2 * hf

/-- A row of viscous blocks times a vector: `S`, `dS` stress and its change, `va`, `dva` velocity and its change, `q` change of the heat flux. -/
def visLin (n : V2) (S dS : Fin 2 → Fin 2 → ℝ) (va dva q : V2) : St :=
  ![0, dS 0 0 * n 0 + dS 0 1 * n 1, dS 1 0 * n 0 + dS 1 1 * n 1,
    (dS 0 0 * va 0 + S 0 0 * dva 0 + (dS 0 1 * va 1 + S 0 1 * dva 1) + q 0) * n 0 + (dS 1 0 * va 0 + S 1 0 * dva 0 + (dS 1 1 * va 1 + S 1 1 * dva 1) + q 1) * n 1]

theorem tens_vec (S : Fin 2 → Fin 2 → ℝ) (n : V2) (i : Fin 2) : χ.tens S i 0 * χ.dir n 0 + χ.tens S i 1 * χ.dir n 1 = χ.dir (fun p => S p 0 * n 0 + S p 1 * n 1) i := by
  have hu := χ.unit
  have hf := χ.flip
  have := χ.dot_dir (fun q => χ.dir (fun p => S p q) i) n
  unfold dot at this
  simp only [tens]
  rw [this]
  fin_cases i <;> simp [dir] <;> ring

theorem visLin_im (n : V2) (S dS : Fin 2 → Fin 2 → ℝ) (va dva q : V2) :
    visLin (χ.dir n) (fun i j => χ.a * χ.b ^ 2 * χ.tens S i j) (fun i j => χ.a * χ.b ^ 2 * χ.tens dS i j) (fun d => χ.b * χ.dir va d) (fun d => χ.b * χ.dir dva d)
      (fun d => χ.a * χ.b ^ 3 * χ.dir q d) = fun i => χ.b * χ.st (visLin n S dS va dva q) i := by
  have h1 := χ.tens_vec dS n 0
  have h2 := χ.tens_vec dS n 1
  have h3 := χ.tens_vec dS va 0
  have h4 := χ.tens_vec dS va 1
  have h5 := χ.tens_vec S dva 0
  have h6 := χ.tens_vec S dva 1
  have h7 := χ.dot_dir q n
  have h8 := χ.dot_dir (fun p => dS p 0 * va 0 + dS p 1 * va 1) n
  have h9 := χ.dot_dir (fun p => S p 0 * dva 0 + S p 1 * dva 1) n
  unfold dot at h7 h8 h9
  funext i
  fin_cases i
  · simp [visLin]
  · simp only [visLin, st, Fin.mk_one, Matrix.cons_val_zero, Matrix.cons_val_one, Matrix.cons_val]
    simp only [dir_0] at h1 ⊢
    linear_combination χ.a * χ.b ^ 2 * h1
  · simp only [visLin, st, Fin.reduceFinMk, Matrix.cons_val_zero, Matrix.cons_val_one, Matrix.cons_val]
    simp only [dir_1] at h2 ⊢
    linear_combination χ.a * χ.b ^ 2 * h2
  · simp only [visLin, st, Fin.reduceFinMk, Matrix.cons_val_zero, Matrix.cons_val_one, Matrix.cons_val]
    linear_combination χ.a * χ.b ^ 3 * (h3 * χ.dir n 0 + h4 * χ.dir n 1 + h5 * χ.dir n 0 + h6 * χ.dir n 1 + h7 + h8 + h9)

/-- Change of half the viscosity of one side. -/
noncomputable def dMu (G : Gas) (cv : Bool) (u x : St) : ℝ := if cv then 0 else ap (G.dViscosityC u) x * (1 / 2)
/-- Average velocity. -/
noncomputable def vAvg (ul ur : St) : V2 := fun j => 1 / 2 * (ul (vix j) / ul 0 + ur (vix j) / ur 0)
/-- Change of half the velocity of one side. -/
noncomputable def dVAvg (u x : St) : V2 := fun j => 1 / 2 / u 0 * x (vix j) - 1 / 2 * u (vix j) / (u 0 * u 0) * x 0

theorem ap_left (G : Gas) (cv : Bool) (n : V2) (ul ur : St) (grad : Gr) (dl dr : Fin 2 → Fin 4 → St) (x : St) :
    (fun i => ap ((viscJac G cv n ul ur grad dl dr).1 i) x) = visLin n (stress (faceMu G cv ul ur) grad)
      (fun i j => stress (dMu G cv ul x) grad i j + stress (faceMu G cv ul ur) (fun d v => ap (dl d v) x) i j) (vAvg ul ur) (dVAvg ul x)
      (fun i => G.conductivity (dMu G cv ul x) * grad i 3 + G.conductivity (faceMu G cv ul ur) * ap (dl i 3) x) := by
  funext i
  cases cv
  · fin_cases i <;> simp [viscJac, visLin, ap4, dMu, vAvg, dVAvg, dStress, stress, vix, Gas.conductivity, Gas.dConductivity] <;> ring
  · fin_cases i <;> simp [viscJac, visLin, ap4, dMu, vAvg, dVAvg, dStress, stress, vix, Gas.conductivity] <;> ring

theorem ap_right (G : Gas) (cv : Bool) (n : V2) (ul ur : St) (grad : Gr) (dl dr : Fin 2 → Fin 4 → St) (x : St) :
    (fun i => ap ((viscJac G cv n ul ur grad dl dr).2 i) x) = fun i => - visLin n (stress (faceMu G cv ul ur) grad)
      (fun i j => stress (dMu G cv ur x) grad i j + stress (faceMu G cv ul ur) (fun d v => ap (dr d v) x) i j) (vAvg ul ur) (dVAvg ur x)
      (fun i => G.conductivity (dMu G cv ur x) * grad i 3 + G.conductivity (faceMu G cv ul ur) * ap (dr i 3) x) i := by
  funext i
  cases cv
  · fin_cases i <;> simp [viscJac, visLin, ap4, dMu, vAvg, dVAvg, dStress, stress, vix, Gas.conductivity, Gas.dConductivity] <;> ring
  · fin_cases i <;> simp [viscJac, visLin, ap4, dMu, vAvg, dVAvg, dStress, stress, vix, Gas.conductivity] <;> ring

theorem vAvg_im (ul ur : St) : vAvg (χ.st ul) (χ.st ur) = fun d => χ.b * χ.dir (vAvg ul ur) d := by
  have hl := χ.vel_st ul
  have hr := χ.vel_st ur
  have h : ∀ u w : St, vAvg u w = fun j => 1 / 2 * (Gas.vel u j + Gas.vel w j) := fun u w => by
    funext j; fin_cases j <;> simp [vAvg, Gas.vel, vix]
  rw [h, h, hl, hr]
  funext d; fin_cases d <;> simp [dir] <;> ring

theorem dVAvg_im {u : St} (x : St) : dVAvg (χ.st u) (χ.st x) = fun d => χ.b * χ.dir (dVAvg u x) d := by
  have ha := χ.ha.ne'
  have hb := χ.hb.ne'
  have h1 : ∀ y : ℝ, 1 / 2 / (χ.a * u 0) * (χ.a * χ.b * y) = χ.b * (1 / 2 / u 0 * y) := fun y => by field_simp
  have h2 : ∀ y z : ℝ, 1 / 2 * (χ.a * χ.b * y) / (χ.a * u 0 * (χ.a * u 0)) * (χ.a * z) = χ.b * (1 / 2 * y / (u 0 * u 0) * z) := fun y z => by field_simp
  funext d; fin_cases d
  · simp only [dVAvg, vix, dir, st_0, st_1, Fin.zero_eta, Matrix.cons_val_zero, Matrix.cons_val_one, h1, h2]; ring
  · simp only [dVAvg, vix, dir, st_0, st_2, Fin.mk_one, Matrix.cons_val_zero, Matrix.cons_val_one, h1, h2]; ring

section gas
variable {L : ℝ} {G G' : Gas} (hG : χ.GasIm G G')
include hG

theorem temp_im (r p : ℝ) : G'.temperature (χ.a * r) (χ.a * χ.b ^ 2 * p) = G.temperature r p := by
  have ha := χ.ha.ne'
  unfold Gas.temperature
  rw [mul_assoc χ.a, mul_div_mul_left _ _ ha, hG.g, ← hG.mach]; ring

theorem tempC_im (u : St) : G'.temperatureC (χ.st u) = G.temperatureC u := by
  unfold Gas.temperatureC; rw [χ.pressure_st hG.g, st_0, χ.temp_im hG]

theorem prim2_im (u : St) : G'.prim2OfCons (χ.st u) = χ.tp (G.prim2OfCons u) := by
  have hv := χ.vel_st u
  have h0 := congrFun hv 0
  have h1 := congrFun hv 1
  have ht := χ.tempC_im hG u
  funext i; fin_cases i
  · rfl
  · exact h0
  · exact h1
  · exact ht

theorem dPressure_im {u : St} (hu : u 0 ≠ 0) (x : St) : ap (G'.dPressure (χ.st u)) (χ.st x) = χ.a * χ.b ^ 2 * ap (G.dPressure u) x := by
  have ha := χ.ha.ne'
  have hb := χ.hb.ne'
  have h := χ.dot_dir (mom u) (mom x)
  simp only [ap4, Gas.dPressure, χ.mm_st, hG.g]
  simp only [st, Matrix.cons_val_zero, Matrix.cons_val_one, Matrix.cons_val]
  simp only [dot, mom, dir_0, dir_1] at h ⊢
  simp at h ⊢
  field_simp
  linear_combination (-2 * (G.g - 1)) * u 0 * h

theorem dTemp_im {u : St} (hu : u 0 ≠ 0) (x : St) : ap (G'.dTemperatureC (χ.st u)) (χ.st x) = ap (G.dTemperatureC u) x := by
  have ha := χ.ha.ne'
  have hb := χ.hb.ne'
  have hp := χ.dPressure_im hG hu x
  have hx : ∀ (H : Gas) (r p : ℝ) (dp x : St), r ≠ 0 → ap (H.dTemperature r p dp) x = H.g * H.Minf * H.Minf / r * ap dp x - H.g * H.Minf * H.Minf * p / (r * r) * x 0 := fun H r p dp x hr => by
    simp [ap4, Gas.dTemperature]; field_simp; ring
  unfold Gas.dTemperatureC
  rw [st_0, hx _ _ _ _ _ (mul_ne_zero ha hu), hx _ _ _ _ _ hu, hp, χ.pressure_st hG.g, hG.g, ← hG.mach, st_0]
  field_simp

theorem dPrim2_im {u : St} (hu : u 0 ≠ 0) (x : St) : (fun i => ap (G'.dPrim2 (χ.st u) i) (χ.st x)) = χ.tp fun i => ap (G.dPrim2 u i) x := by
  have ha := χ.ha.ne'
  have hb := χ.hb.ne'
  have ht := χ.dTemp_im hG hu x
  have h3 : ∀ (H : Gas) (w : St), H.dPrim2 w 3 = H.dTemperatureC w := fun H w => by
    simp [Gas.dPrim2, Gas.dTemperatureC, Gas.dPressure', Gas.dPressure, Gas.pressure, mul_div_assoc]
  funext i; fin_cases i
  · simp [Gas.dPrim2, ap4, tp]
  · simp [Gas.dPrim2, ap4, tp, st]; field_simp; ring
  · simp [Gas.dPrim2, ap4, tp, st]; field_simp; ring
  · show ap (G'.dPrim2 (χ.st u) 3) (χ.st x) = ap (G.dPrim2 u 3) x
    rw [h3, h3, ht]

theorem visc_im (hre : G'.Reinf = G.Reinf / (χ.a * χ.b * L)) (u : St) : G'.viscosityC (χ.st u) = χ.a * χ.b * L * G.viscosityC u ∧ G'.constViscosity = χ.a * χ.b * L * G.constViscosity := by
  have ha := χ.ha.ne'
  have hb := χ.hb.ne'
  constructor
  · unfold Gas.viscosityC Gas.viscosityT
    rw [χ.tempC_im hG, hG.temp, hre, div_div_eq_mul_div]; ring
  · unfold Gas.constViscosity; rw [hre, one_div_div, mul_one_div]

theorem dVisc_im (hre : G'.Reinf = G.Reinf / (χ.a * χ.b * L)) {u : St} (hu : u 0 ≠ 0) (x : St) : ap (G'.dViscosityC (χ.st u)) (χ.st x) = χ.a * χ.b * L * ap (G.dViscosityC u) x := by
  have hx : ∀ (H : Gas) (u x : St), ap (H.dViscosityC u) x = (1 + sC / H.Tinf) * (3 / 2 * H.temperatureC u ^ (-(3 / 2) : ℝ) * (H.temperatureC u + sC / H.Tinf) -
      H.temperatureC u ^ (3 / 2 : ℝ)) / ((H.temperatureC u + sC / H.Tinf) * (H.temperatureC u + sC / H.Tinf)) / H.Reinf * ap (H.dTemperatureC u) x := fun H u x => by
    simp only [ap4, Gas.dViscosityC]; ring
  rw [hx, hx, χ.dTemp_im hG hu, χ.tempC_im hG, hG.temp, hre, div_div_eq_mul_div]
  ring

theorem mu_im (hre : G'.Reinf = G.Reinf / (χ.a * χ.b * L)) (cv : Bool) (ul ur : St) : faceMu G' cv (χ.st ul) (χ.st ur) = χ.a * χ.b * L * faceMu G cv ul ur := by
  unfold faceMu
  rw [(χ.visc_im hG hre ul).1, (χ.visc_im hG hre ur).1, (χ.visc_im hG hre ur).2]
  split_ifs
  · rfl
  · ring

theorem dMu_im (hre : G'.Reinf = G.Reinf / (χ.a * χ.b * L)) (cv : Bool) {u : St} (hu : u 0 ≠ 0) (x : St) : dMu G' cv (χ.st u) (χ.st x) = χ.a * χ.b * L * dMu G cv u x := by
  unfold dMu
  rw [χ.dVisc_im hG hre hu]
  split_ifs
  · ring
  · ring

theorem cond_im (mu : ℝ) : G'.conductivity (χ.a * χ.b * L * mu) = χ.a * χ.b ^ 3 * L * G.conductivity mu := by
  have hb := χ.hb.ne'
  unfold Gas.conductivity
  rw [hG.g, hG.pr, ← hG.mach, show χ.b * G'.Minf * (χ.b * G'.Minf) * (G.g - 1) * G.Pr = χ.b ^ 2 * (G'.Minf * G'.Minf * (G.g - 1) * G.Pr) by ring,
    show χ.a * χ.b * L * mu / (G'.Minf * G'.Minf * (G.g - 1) * G.Pr) = (χ.b ^ 2 * (χ.a * χ.b * L * mu)) / (χ.b ^ 2 * (G'.Minf * G'.Minf * (G.g - 1) * G.Pr)) from
      (mul_div_mul_left _ _ (pow_ne_zero 2 hb)).symm]
  ring

end gas

theorem tp_sub (u v : St) : χ.tp (fun i => u i - v i) = fun i => χ.tp u i - χ.tp v i := by
  funext i; fin_cases i <;> simp [tp] <;> ring
theorem tp_mul (r : ℝ) (u : St) : χ.tp (fun i => r * u i) = fun i => r * χ.tp u i := by
  funext i; fin_cases i <;> simp [tp] <;> ring

theorem thin_im {L : ℝ} {x y x' y' : V2} (h1 : cdist x' y' = L * cdist x y) (h2 : cdir x' y' = χ.dir (cdir x y)) (u w : St) :
    thinGrad x' y' (χ.tp u) (χ.tp w) = χ.grIm L (thinGrad x y u w) := by
  funext j i
  have h3 : ∀ d, χ.tp (thinGrad x y u w d) i = cdir x y d / cdist x y * (χ.tp w i - χ.tp u i) := fun d => by
    have : thinGrad x y u w d = fun i => (cdir x y d / cdist x y) * (w i - u i) := by funext i; simp only [thinGrad]; ring
    rw [this, χ.tp_mul (cdir x y d / cdist x y) (fun i => w i - u i), χ.tp_sub]
  change (χ.tp w i - χ.tp u i) / cdist x' y' * cdir x' y' j = _
  simp only [grIm, h1, h2, h3]
  rw [mul_comm L, ← div_div]
  fin_cases j <;> simp [dir] <;> ring

theorem dThin_im {L : ℝ} {x y x' y' : V2} (h1 : cdist x' y' = L * cdist x y) (h2 : cdir x' y' = χ.dir (cdir x y)) {A A' : Fin 4 → St} {z : St}
    (hA : (fun i => ap (A' i) (χ.st z)) = χ.tp fun i => ap (A i) z) :
    (fun d v => ap (dThinR x' y' A' d v) (χ.st z)) = χ.grIm L (fun d v => ap (dThinR x y A d v) z) ∧
    (fun d v => ap (dThinL x' y' A' d v) (χ.st z)) = χ.grIm L (fun d v => ap (dThinL x y A d v) z) := by
  have hr : ∀ (x y : V2) (A : Fin 4 → St) (z : St) d v, ap (dThinR x y A d v) z = cdir x y d / cdist x y * ap (A v) z := fun x y A z d v => by
    simp only [dThinR, ap4]; ring
  have hl : ∀ (x y : V2) (A : Fin 4 → St) (z : St) d v, ap (dThinL x y A d v) z = -(cdir x y d / cdist x y) * ap (A v) z := fun x y A z d v => by
    simp only [dThinL, ap4]; ring
  constructor
  · funext j i
    simp only [hr, grIm, h1, h2]
    rw [show ap (A' i) (χ.st z) = _ from congrFun hA i]
    simp only [χ.tp_mul]
    rw [mul_comm L, ← div_div]
    fin_cases j <;> simp [dir] <;> ring
  · funext j i
    simp only [hl, grIm, h1, h2]
    rw [show ap (A' i) (χ.st z) = _ from congrFun hA i]
    simp only [χ.tp_mul]
    rw [mul_comm L, ← div_div]
    fin_cases j <;> simp [dir] <;> ring

theorem heat_im {L : ℝ} (hL : L ≠ 0) (k k' : ℝ) (g h : Gr) : (fun i => χ.a * χ.b ^ 3 * L * k * χ.grIm L g i 3 + χ.a * χ.b ^ 3 * L * k' * χ.grIm L h i 3) =
    fun d => χ.a * χ.b ^ 3 * χ.dir (fun i => k * g i 3 + k' * h i 3) d := by
  funext j
  fin_cases j <;> simp [grIm, tp, dir] <;> field_simp <;> ring

theorem tens_add (S R : Fin 2 → Fin 2 → ℝ) (i j : Fin 2) : χ.tens (fun i j => S i j + R i j) i j = χ.tens S i j + χ.tens R i j := by
  fin_cases i <;> fin_cases j <;> simp [tens, dir] <;> ring

/-- C104, viscous blocks, for both viscosity laws. -/
theorem C104_viscous {L : ℝ} {G G' : Gas} (hG : χ.GasIm G G') (hre : G'.Reinf = G.Reinf / (χ.a * χ.b * L)) (hL : L ≠ 0) (cv : Bool) {ul ur : St} (hl : ul 0 ≠ 0) (hr : ur 0 ≠ 0) (n : V2) {x y x' y' : V2}
    (h1 : cdist x' y' = L * cdist x y) (h2 : cdir x' y' = χ.dir (cdir x y)) :
    χ.JacIm χ.b ⟨(viscousJac G cv n x y ul ur).1, (viscousJac G cv n x y ul ur).2⟩
      ⟨(viscousJac G' cv (χ.dir n) x' y' (χ.st ul) (χ.st ur)).1, (viscousJac G' cv (χ.dir n) x' y' (χ.st ul) (χ.st ur)).2⟩ := by
  have key : ∀ (z w : St) (dg : Gr), w 0 ≠ 0 → visLin (χ.dir n) (stress (faceMu G' cv (χ.st ul) (χ.st ur)) (thinGrad x' y' (G'.prim2OfCons (χ.st ul)) (G'.prim2OfCons (χ.st ur))))
        (fun i j => stress (dMu G' cv (χ.st w) (χ.st z)) (thinGrad x' y' (G'.prim2OfCons (χ.st ul)) (G'.prim2OfCons (χ.st ur))) i j +
          stress (faceMu G' cv (χ.st ul) (χ.st ur)) (χ.grIm L dg) i j) (vAvg (χ.st ul) (χ.st ur)) (dVAvg (χ.st w) (χ.st z))
        (fun i => G'.conductivity (dMu G' cv (χ.st w) (χ.st z)) * thinGrad x' y' (G'.prim2OfCons (χ.st ul)) (G'.prim2OfCons (χ.st ur)) i 3 +
          G'.conductivity (faceMu G' cv (χ.st ul) (χ.st ur)) * χ.grIm L dg i 3) =
      fun i => χ.b * χ.st (visLin n (stress (faceMu G cv ul ur) (thinGrad x y (G.prim2OfCons ul) (G.prim2OfCons ur)))
        (fun i j => stress (dMu G cv w z) (thinGrad x y (G.prim2OfCons ul) (G.prim2OfCons ur)) i j + stress (faceMu G cv ul ur) dg i j) (vAvg ul ur) (dVAvg w z)
        (fun i => G.conductivity (dMu G cv w z) * thinGrad x y (G.prim2OfCons ul) (G.prim2OfCons ur) i 3 + G.conductivity (faceMu G cv ul ur) * dg i 3)) i := by
    intro z w dg hw
    rw [χ.mu_im hG hre, χ.dMu_im hG hre cv hw, χ.prim2_im hG, χ.prim2_im hG, χ.thin_im h1 h2, χ.vAvg_im, χ.dVAvg_im, χ.cond_im hG, χ.cond_im hG, χ.heat_im hL, ← χ.visLin_im]
    congr 1
    · funext i j; rw [χ.stress_im hL]
    · funext i j; rw [χ.stress_im hL, χ.stress_im hL, χ.tens_add, mul_add]
  constructor
  · intro z
    have e := χ.dThin_im h1 h2 (χ.dPrim2_im hG hl z)
    change (fun i => ap ((viscousJac G' cv (χ.dir n) x' y' (χ.st ul) (χ.st ur)).1 i) (χ.st z)) = fun i => χ.b * χ.st (fun j => ap ((viscousJac G cv n x y ul ur).1 j) z) i
    unfold viscousJac
    rw [ap_left, ap_left, e.2, ← key z ul _ hl]
    congr 1
    funext i
    rw [show ap (dThinL x' y' (G'.dPrim2 (χ.st ul)) i 3) (χ.st z) = _ from congrFun (congrFun e.2 i) 3]
  · intro z
    have e := χ.dThin_im h1 h2 (χ.dPrim2_im hG hr z)
    change (fun i => ap ((viscousJac G' cv (χ.dir n) x' y' (χ.st ul) (χ.st ur)).2 i) (χ.st z)) = fun i => χ.b * χ.st (fun j => ap ((viscousJac G cv n x y ul ur).2 j) z) i
    unfold viscousJac
    rw [ap_right, ap_right, e.1]
    have k := key z ur (fun d v => ap (dThinR x y (G.dPrim2 ur) d v) z) hr
    have hq : (fun i => G'.conductivity (dMu G' cv (χ.st ur) (χ.st z)) * thinGrad x' y' (G'.prim2OfCons (χ.st ul)) (G'.prim2OfCons (χ.st ur)) i 3 +
          G'.conductivity (faceMu G' cv (χ.st ul) (χ.st ur)) * ap (dThinR x' y' (G'.dPrim2 (χ.st ur)) i 3) (χ.st z)) =
        fun i => G'.conductivity (dMu G' cv (χ.st ur) (χ.st z)) * thinGrad x' y' (G'.prim2OfCons (χ.st ul)) (G'.prim2OfCons (χ.st ur)) i 3 +
          G'.conductivity (faceMu G' cv (χ.st ul) (χ.st ur)) * χ.grIm L (fun d v => ap (dThinR x y (G.dPrim2 ur) d v) z) i 3 := by
      funext i
      rw [show ap (dThinR x' y' (G'.dPrim2 (χ.st ur)) i 3) (χ.st z) = _ from congrFun (congrFun e.1 i) 3]
    rw [hq, k]
    funext i
    generalize visLin n _ _ _ _ _ = w
    fin_cases i <;> simp [st] <;> ring

end Chart
end FVENS
