import Verif.Phys.Props

/-!
# Viscosity and conductivity in physical units (C04)

The code computes with quantities divided by those of the free stream. Here the laws it implements are stated in kelvins and as a Prandtl number.
-/

namespace FVENS

/-- C04: Sutherland's law. With `T` kelvins, `T∞` of them in the free stream, the viscosity is `(T/T∞)^{3/2} (T∞ + 110.5)/(T + 110.5)` times that of the free stream, which is `1/Re`. -/
theorem C04_sutherland_law (G : Gas) (hT : 0 < G.Tinf) {T : ℝ} (h : 0 ≤ T) :
    G.viscosityT (T / G.Tinf) = (T / G.Tinf) ^ (3 / 2 : ℝ) * ((G.Tinf + 110.5) / (T + 110.5)) * G.viscosityT 1 ∧ G.viscosityT 1 = 1 / G.Reinf := by
  have h1 : G.viscosityT 1 = 1 / G.Reinf := by
    have : 1 + sC / G.Tinf ≠ 0 := by have : 0 < sC := by norm_num [sC]
                                     positivity
    unfold Gas.viscosityT
    rw [Real.one_rpow, div_self this, one_mul]
  refine ⟨?_, h1⟩
  rw [h1]
  have h2 : T + 110.5 ≠ 0 := by have : (0:ℝ) < 110.5 := by norm_num
                                positivity
  have h3 : T / G.Tinf + sC / G.Tinf = (T + 110.5) / G.Tinf := by norm_num [sC]; ring
  have h4 : 1 + sC / G.Tinf = (G.Tinf + 110.5) / G.Tinf := by field_simp; norm_num [sC]
  unfold Gas.viscosityT
  rw [h3, h4]
  field_simp

/-- C04: hotter gas is more viscous, as Sutherland's law says. -/
theorem C04_sutherland_mono (G : Gas) (hT : 0 < G.Tinf) (hR : 0 < G.Reinf) {S T : ℝ} (h : 0 < S) (hST : S < T) : G.viscosityT S < G.viscosityT T := by
  have hs : 0 < sC / G.Tinf := div_pos (by norm_num [sC]) hT
  unfold Gas.viscosityT
  refine div_lt_div_of_pos_right ?_ hR
  have e : ∀ {x : ℝ}, 0 < x → x ^ (3 / 2 : ℝ) = x * x ^ (1 / 2 : ℝ) := fun hx => by
    rw [show (3 / 2 : ℝ) = 1 + 1 / 2 by norm_num, Real.rpow_add hx, Real.rpow_one]
  rw [e h, e (h.trans hST), div_mul_eq_mul_div, div_mul_eq_mul_div, div_lt_div_iff₀ (by linarith) (by linarith)]
  have hr : S ^ (1 / 2 : ℝ) < T ^ (1 / 2 : ℝ) := Real.rpow_lt_rpow h.le hST (by norm_num)
  have h0 : 0 < S ^ (1 / 2 : ℝ) := Real.rpow_pos_of_pos h _
  generalize S ^ (1 / 2 : ℝ) = a at *
  generalize T ^ (1 / 2 : ℝ) = b at *
  have k1 : S * a * (T + sC / G.Tinf) < T * b * (S + sC / G.Tinf) := by
    have hST0 := mul_pos h (h.trans hST)
    nlinarith [mul_lt_mul_of_pos_left hr hST0, mul_lt_mul_of_pos_left hr h, mul_lt_mul_of_pos_right hST (h0.trans hr), mul_pos hs (sub_pos.2 (show S * a < T * b by
      nlinarith [mul_lt_mul_of_pos_left hr h, mul_lt_mul_of_pos_right hST (h0.trans hr)]))]
  have k2 : 0 < 1 + sC / G.Tinf := by linarith
  nlinarith [mul_lt_mul_of_pos_left k1 k2]

/-- C04: the conductivity belongs to the Prandtl number: `κ T Pr = μ h`, where `h` is the static enthalpy per mass of the gas, whatever its state. -/
theorem C04_prandtl (G : Gas) (hg : 1 < G.g) (hM : G.Minf ≠ 0) (hP : G.Pr ≠ 0) {u : St} (hr : u 0 ≠ 0) (mu : ℝ) :
    G.conductivity mu * G.temperatureC u * G.Pr = mu * (G.varsH u - dot (Gas.vel u) (Gas.vel u) / 2) := by
  have hg' : G.g - 1 ≠ 0 := by linarith
  simp only [Gas.conductivity, Gas.temperatureC, Gas.temperature, Gas.varsH, Gas.varsP, Gas.vel, Gas.pressure, Gas.pressureOfInternal, dot, mom, Matrix.cons_val_zero, Matrix.cons_val_one]
  field_simp
  ring

example : air.viscosityT (600 / air.Tinf) = 2 ^ (3 / 2 : ℝ) * ((300 + 110.5) / (600 + 110.5)) * air.viscosityT 1 := by
  have h := (C04_sutherland_law air (by norm_num [air]) (T := 600) (by norm_num)).1
  have e : air.Tinf = 300 := by norm_num [air]
  rw [h, e]
  norm_num

example : air.conductivity 2 * air.temperatureC uEx * (18 / 25) = 2 * (air.varsH uEx - 5 / 4) := by
  have h := C04_prandtl air (by norm_num [air]) (by norm_num [air]) (by norm_num [air]) (u := uEx) (by norm_num [uEx]) 2
  have e1 : air.Pr = 18 / 25 := by norm_num [air]
  have e2 : dot (Gas.vel uEx) (Gas.vel uEx) / 2 = 5 / 4 := by simp [dot, Gas.vel, uEx]; norm_num
  rw [e1, e2] at h
  exact h

end FVENS
