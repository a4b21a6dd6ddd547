import Verif.FV.JacBoundary

/-!
# Changes of axes and of units: flux Jacobians (C104)

A chart turns or reflects the coordinate axes and changes the units of density and velocity. States are mapped linearly. The Jacobian blocks of the code in the new
chart are the old blocks conjugated by that linear map. Proof: with the choices between branches made beforehand, every flux function has the coded blocks as its
derivatives (C18, C50) and commutes with the change of chart; derivatives are unique.
-/

namespace FVENS

open Flux

/-- A change of axes and units: `c`, `s` cosine and sine of the turn, `e = -1` for a reflection, `a` and `b` factors of density and velocity. -/
structure Chart where
  c : ℝ
  s : ℝ
  e : ℝ
  a : ℝ
  b : ℝ
  unit : c * c + s * s = 1
  flip : e * e = 1
  ha : 0 < a
  hb : 0 < b

namespace Chart
variable (χ : Chart)

/-- Image of a direction. -/
def dir (n : V2) : V2 := ![χ.c * n 0 - χ.e * χ.s * n 1, χ.s * n 0 + χ.e * χ.c * n 1]
/-- Image of a state. -/
def st (u : St) : St := ![χ.a * u 0, χ.a * χ.b * (χ.c * u 1 - χ.e * χ.s * u 2), χ.a * χ.b * (χ.s * u 1 + χ.e * χ.c * u 2), χ.a * χ.b ^ 2 * u 3]
/-- Its matrix. -/
def mat : Fin 4 → St := ![![χ.a, 0, 0, 0], ![0, χ.a * χ.b * χ.c, -(χ.a * χ.b * (χ.e * χ.s)), 0], ![0, χ.a * χ.b * χ.s, χ.a * χ.b * (χ.e * χ.c), 0], ![0, 0, 0, χ.a * χ.b ^ 2]]

@[simp] theorem st_0 (u : St) : χ.st u 0 = χ.a * u 0 := rfl
theorem st_1 (u : St) : χ.st u 1 = χ.a * χ.b * (χ.c * u 1 - χ.e * χ.s * u 2) := rfl
theorem st_2 (u : St) : χ.st u 2 = χ.a * χ.b * (χ.s * u 1 + χ.e * χ.c * u 2) := rfl
@[simp] theorem st_3 (u : St) : χ.st u 3 = χ.a * χ.b ^ 2 * u 3 := rfl
theorem dir_0 (n : V2) : χ.dir n 0 = χ.c * n 0 - χ.e * χ.s * n 1 := rfl
theorem dir_1 (n : V2) : χ.dir n 1 = χ.s * n 0 + χ.e * χ.c * n 1 := rfl

theorem st_mat (u : St) (i : Fin 4) : χ.st u i = ∑ k, χ.mat i k * u k := by
  rw [Fin.sum_univ_four]
  fin_cases i <;> simp [st, mat] <;> ring

theorem st_add (u v : St) : χ.st (u + v) = χ.st u + χ.st v := by
  funext i; fin_cases i <;> simp [st] <;> ring
theorem st_smul (r : ℝ) (u : St) : χ.st (r • u) = r • χ.st u := by
  funext i; fin_cases i <;> simp [st] <;> ring

theorem dot_dir (x y : V2) : dot (χ.dir x) (χ.dir y) = dot x y := by
  simp only [dot, dir_0, dir_1]
  linear_combination (x 0 * y 0 + χ.e * χ.e * x 1 * y 1) * χ.unit + x 1 * y 1 * χ.flip

theorem vel_st (u : St) : Gas.vel (χ.st u) = fun d => χ.b * χ.dir (Gas.vel u) d := by
  have := χ.ha.ne'
  funext d
  fin_cases d
  · show χ.a * χ.b * (χ.c * u 1 - χ.e * χ.s * u 2) / (χ.a * u 0) = χ.b * (χ.c * (u 1 / u 0) - χ.e * χ.s * (u 2 / u 0))
    rw [mul_assoc, mul_div_mul_left _ _ this]; ring
  · show χ.a * χ.b * (χ.s * u 1 + χ.e * χ.c * u 2) / (χ.a * u 0) = χ.b * (χ.s * (u 1 / u 0) + χ.e * χ.c * (u 2 / u 0))
    rw [mul_assoc, mul_div_mul_left _ _ this]; ring

theorem dot_mul (x y : V2) (r q : ℝ) : dot (fun d => r * x d) (fun d => q * y d) = r * q * dot x y := by simp only [dot]; ring
theorem dot_mul_left (x y : V2) (r : ℝ) : dot (fun d => r * x d) y = r * dot x y := by simp only [dot]; ring

theorem vn_st (u : St) (n : V2) : Gas.varsVn (χ.st u) (χ.dir n) = χ.b * Gas.varsVn u n := by
  unfold Gas.varsVn; rw [vel_st, dot_mul_left, dot_dir]

theorem vv_st (u : St) : dot (Gas.vel (χ.st u)) (Gas.vel (χ.st u)) = χ.b ^ 2 * dot (Gas.vel u) (Gas.vel u) := by
  rw [vel_st, dot_mul, dot_dir]; ring

section gas
variable {G G' : Gas} (hg : G'.g = G.g) (u : St) (n : V2)
include hg

theorem p_st : G'.varsP (χ.st u) = χ.a * χ.b ^ 2 * G.varsP u := by
  unfold Gas.varsP; rw [vv_st]; simp only [st_0, st_3, hg]; ring

theorem h_st : G'.varsH (χ.st u) = χ.b ^ 2 * G.varsH u := by
  unfold Gas.varsH; rw [χ.p_st hg]; simp only [st_0, st_3]
  rw [← mul_add, mul_assoc, mul_div_mul_left _ _ χ.ha.ne', mul_div_assoc]

theorem sound_st (r p : ℝ) : G'.soundSpeed (χ.a * r) (χ.a * χ.b ^ 2 * p) = χ.b * G.soundSpeed r p := by
  unfold Gas.soundSpeed
  rw [hg, show G.g * (χ.a * χ.b ^ 2 * p) = χ.a * (χ.b ^ 2 * (G.g * p)) by ring, mul_div_mul_left _ _ χ.ha.ne', mul_div_assoc, Real.sqrt_mul (by positivity),
    Real.sqrt_sq χ.hb.le]

theorem c_st : cSide G' (χ.st u) = χ.b * cSide G u := by
  unfold cSide; rw [χ.p_st hg, st_0, χ.sound_st hg]

omit hg in
theorem mom_st : mom (χ.st u) = fun d => χ.a * χ.b * χ.dir (mom u) d := by
  funext d; fin_cases d <;> rfl

omit hg in
theorem mvn_st : dot (mom (χ.st u)) (χ.dir n) / χ.st u 0 = χ.b * (dot (mom u) n / u 0) := by
  rw [mom_st, st_0, dot_mul_left, dot_dir, mul_assoc, mul_div_mul_left _ _ χ.ha.ne', mul_div_assoc]

omit hg in
theorem mm_st : dot (mom (χ.st u)) (mom (χ.st u)) = χ.a * (χ.a * χ.b ^ 2) * dot (mom u) (mom u) := by
  rw [mom_st, dot_mul, dot_dir]; ring

theorem pressure_st : G'.pressure (χ.st u) = χ.a * χ.b ^ 2 * G.pressure u := by
  unfold Gas.pressure Gas.pressureOfInternal
  rw [mm_st, st_0, st_3, hg, show 1 / 2 * (χ.a * (χ.a * χ.b ^ 2) * dot (mom u) (mom u)) = χ.a * (χ.a * χ.b ^ 2 * (1 / 2 * dot (mom u) (mom u))) by ring,
    mul_div_mul_left _ _ χ.ha.ne']
  ring

theorem soundC_st : G'.soundSpeedC (χ.st u) = χ.b * G.soundSpeedC u := by
  unfold Gas.soundSpeedC; rw [χ.pressure_st hg, st_0, χ.sound_st hg]

theorem adm_st {u : St} (h : Adm G u) : Adm G' (χ.st u) := by
  have := χ.ha; have := χ.hb; have := h.rho; have := h.p
  exact ⟨by rw [hg]; exact h.g1, by rw [st_0]; positivity, by rw [χ.pressure_st hg]; positivity⟩

omit hg in
theorem dirFlux_st (vn p : ℝ) : Gas.dirFlux (χ.st u) (χ.dir n) (χ.b * vn) (χ.a * χ.b ^ 2 * p) = fun i => χ.b * χ.st (Gas.dirFlux u n vn p) i := by
  funext v; fin_cases v <;> simp [Gas.dirFlux, st, dir] <;> ring

theorem euler_st : G'.eulerFlux (χ.st u) (χ.dir n) = fun i => χ.b * χ.st (G.eulerFlux u n) i := by
  have h := χ.pressure_st hg u
  unfold Gas.pressure at h
  unfold Gas.eulerFlux
  simp only [mvn_st, h]
  exact χ.dirFlux_st u n _ _

/-! ### Averages -/

omit hg in
/-- Image of the averages. -/
def avg (A : Avg) : Avg := ⟨A.R, χ.a * A.rho, fun d => χ.b * χ.dir A.v d, χ.b ^ 2 * A.vm2, χ.b * A.vn, χ.b ^ 2 * A.H, χ.b * A.c⟩

theorem roeOf_st (ul ur : St) : roeOf G' (χ.st ul) (χ.st ur) (χ.dir n) = χ.avg (roeOf G ul ur n) := by
  have hR : χ.a * ur 0 / (χ.a * ul 0) = ur 0 / ul 0 := mul_div_mul_left _ _ χ.ha.ne'
  have hH : ∀ R x y : ℝ, (R * (χ.b ^ 2 * x) + χ.b ^ 2 * y) / (R + 1) = χ.b ^ 2 * ((R * x + y) / (R + 1)) := fun R x y => by ring
  have hs : ∀ g x y : ℝ, √((g - 1) * (χ.b ^ 2 * x - χ.b ^ 2 * y * (1 / 2))) = χ.b * √((g - 1) * (x - y * (1 / 2))) := fun g x y => by
    rw [show (g - 1) * (χ.b ^ 2 * x - χ.b ^ 2 * y * (1 / 2)) = χ.b ^ 2 * ((g - 1) * (x - y * (1 / 2))) by ring, Real.sqrt_mul (by positivity), Real.sqrt_sq χ.hb.le]
  have hv : ∀ (R : ℝ) (x y : V2), (![(R * (χ.b * χ.dir x 0) + χ.b * χ.dir y 0) / (R + 1), (R * (χ.b * χ.dir x 1) + χ.b * χ.dir y 1) / (R + 1)] : V2) =
      fun d => χ.b * χ.dir ![(R * x 0 + y 0) / (R + 1), (R * x 1 + y 1) / (R + 1)] d := fun R x y => by
    funext d; fin_cases d <;> simp [dir] <;> ring
  have hd : ∀ x : V2, dot (fun d => χ.b * χ.dir x d) (fun d => χ.b * χ.dir x d) = χ.b ^ 2 * dot x x := fun x => by rw [dot_mul, dot_dir]; ring
  have hn : ∀ x : V2, dot (fun d => χ.b * χ.dir x d) (χ.dir n) = χ.b * dot x n := fun x => by rw [dot_mul_left, dot_dir]
  unfold roeOf roeAvg avg
  simp only [χ.st_0, hR, χ.vel_st, χ.h_st hg, hg, hv, hH, hd, hn, hs, Avg.mk.injEq, true_and, and_true]
  ring

end gas
end Chart
end FVENS
