import Verif.Flux.Rot
import Mathlib.Analysis.Calculus.Deriv.Abs

/-!
# Property C18: flux Jacobians (Lax-Friedrichs, HLL, AUSM, and the schemes without Jacobian)

`dfdl` is documented as minus the derivative with respect to the left state and `dfdr` as the
derivative with respect to the right state (src/spatial/anumericalflux.hpp).
-/

namespace FVENS
namespace Flux
variable {G : Gas} {u ul ur : St} {n : V2}

/-- Specification: the blocks are the derivatives of the two-state function `F` at `(ul, ur)`. -/
def IsFluxJac (F : St → St → St) (J : FJ) (ul ur : St) : Prop :=
  ∀ i, HasGrad (fun v => F v ur i) (fun k => - J.dfdl i k) ul ∧ HasGrad (fun v => F ul v i) (J.dfdr i) ur

/-- Specification: at equal states the two derivatives add up to the analytical flux Jacobian. -/
def SumsTo (J : FJ) (A : Fin 4 → St) : Prop := ∀ i k, - J.dfdl i k + J.dfdr i k = A i k

/-! ### Local Lax-Friedrichs -/

theorem llfEigJ_eq (a b c d : ℝ) : llfEigJ a b c d = llfEig a b c d := by
  unfold llfEigJ llfEig; split_ifs <;> linarith

theorem C18_llf_sum (G : Gas) (u : St) (n : V2) : SumsTo (llfJac G u u n) (G.dEulerFlux u n) := by
  intro i k; simp only [llfJac]; split_ifs <;> ring

/-- Lax-Friedrichs flux with the spectral radius as a parameter. -/
noncomputable def llfWith (G : Gas) (e : ℝ) (n : V2) (ul ur : St) : St :=
  fun i => 1 / 2 * (G.eulerFlux ul n i + G.eulerFlux ur n i - e * (ur i - ul i))

theorem C18_llf_frozen (hl : ul 0 ≠ 0) (hr : ur 0 ≠ 0) (n : V2) :
    let e := llfEig (Gas.varsVn ul n) (cSide G ul) (Gas.varsVn ur n) (cSide G ur)
    llfWith G e n ul ur = llf G ul ur n ∧ IsFluxJac (llfWith G e n) (llfJac G ul ur n) ul ur := by
  intro e
  refine ⟨rfl, fun i => ⟨?_, ?_⟩⟩
  · have h1 := (C03_eulerFlux G ul n hl i).add (HasGrad.const (G.eulerFlux ur n i))
    have h2 := (h1.sub (((HasGrad.const (ur i)).sub (HasGrad.coord i)).cmul e)).cmul (1 / 2)
    refine h2.congr ?_
    funext k
    simp only [llfJac, llfEigJ_eq]
    by_cases h : i = k
    · subst h; simp [e]
    · have h' : ¬ k = i := fun q => h q.symm
      simp [h, Pi.single_apply, h']
  · have h1 := (HasGrad.const (G.eulerFlux ul n i)).add (C03_eulerFlux G ur n hr i)
    have h2 := (h1.sub (((HasGrad.coord i).sub (HasGrad.const (ul i))).cmul e)).cmul (1 / 2)
    refine h2.congr ?_
    funext k
    simp only [llfJac, llfEigJ_eq]
    by_cases h : i = k
    · subst h; simp [e]
    · have h' : ¬ k = i := fun q => h q.symm
      simp [h, Pi.single_apply, h']

/-! ### HLL -/

theorem C18_hll_sum (G : Gas) (u : St) (n : V2) : SumsTo (hllJac G u u n) (G.dEulerFlux u n) := by
  intro i k; simp only [hllJac]; split_ifs <;> ring

/-- HLL flux with the coefficients as parameters. -/
noncomputable def hllWith (G : Gas) (t1 t3 : ℝ) (n : V2) (ul ur : St) : St :=
  fun i => t1 * G.eulerFlux ur n i + (1 - t1) * G.eulerFlux ul n i - t3 * (ur i - ul i)

theorem hll_eq_with (hl : ul 0 ≠ 0) (hr : ur 0 ≠ 0) (n : V2) :
    hll G ul ur n = hllWith G (hllT1 (slOf G ul ur n) (srOf G ul ur n))
      (hllT3 (slOf G ul ur n) (srOf G ul ur n)) n ul ur := by
  have h1 := varsH_eq (G := G) hl
  have h2 := varsH_eq (G := G) hr
  funext i
  simp only [hll, hllWith, eulerFlux_eq hl, eulerFlux_eq hr]
  fin_cases i
  · simp [hllCore, Gas.dirFlux]; ring
  · simp [hllCore, Gas.dirFlux]
  · simp [hllCore, Gas.dirFlux]
  · simp [hllCore, Gas.dirFlux]; rw [← h1, ← h2]; ring

theorem C18_hll_frozen (hl : ul 0 ≠ 0) (hr : ur 0 ≠ 0) (n : V2) :
    let t1 := hllT1 (slOf G ul ur n) (srOf G ul ur n)
    let t3 := hllT3 (slOf G ul ur n) (srOf G ul ur n)
    hllWith G t1 t3 n ul ur = hll G ul ur n ∧ IsFluxJac (hllWith G t1 t3 n) (hllJac G ul ur n) ul ur := by
  intro t1 t3
  refine ⟨(hll_eq_with hl hr n).symm, fun i => ⟨?_, ?_⟩⟩
  · have h1 := (HasGrad.const (t1 * G.eulerFlux ur n i)).add ((C03_eulerFlux G ul n hl i).cmul (1 - t1))
    have h2 := h1.sub (((HasGrad.const (ur i)).sub (HasGrad.coord i)).cmul t3)
    refine h2.congr ?_
    funext k
    simp only [hllJac]
    by_cases h : i = k
    · subst h; simp [t1, t3]; ring
    · have h' : ¬ k = i := fun q => h q.symm
      simp [h, Pi.single_apply, h', t1]; ring
  · have h1 := ((C03_eulerFlux G ur n hr i).cmul t1).add (HasGrad.const ((1 - t1) * G.eulerFlux ul n i))
    have h2 := h1.sub (((HasGrad.coord i).sub (HasGrad.const (ul i))).cmul t3)
    refine h2.congr ?_
    funext k
    simp only [hllJac]
    by_cases h : i = k
    · subst h; simp [t1, t3]
    · have h' : ¬ k = i := fun q => h q.symm
      simp [h, Pi.single_apply, h', t1]

example : uA 0 ≠ 0 ∧ uB 0 ≠ 0 ∧ uA ≠ uB := by
  refine ⟨by norm_num [uA], by norm_num [uB], fun h => ?_⟩
  have := congrFun h 0; norm_num [uA, uB] at this

/-! ### One-sided derivative rows -/

theorem hasGrad_varsP (hr : u 0 ≠ 0) : HasGrad G.varsP (G.dPressure u) u := by
  have hv := (C03_vmag2 u hr)
  have h := ((HasGrad.coord 3 (u := u)).sub (((HasGrad.coord 0).cmul (1 / 2)).mul hv)).cmul (G.g - 1)
  refine h.congr ?_
  funext i; fin_cases i <;> simp [Gas.dPressure, Gas.dVmag2, dot, mom, Gas.vel] <;> field_simp <;> ring

theorem hasGrad_varsVn (hr : u 0 ≠ 0) (n : V2) : HasGrad (fun v => Gas.varsVn v n) (Gas.dVarsVn u n) u :=
  (C03_vars air u n hr).2.1

theorem hasGrad_vel (hr : u 0 ≠ 0) (j : Fin 2) : HasGrad (fun v => Gas.vel v j) (Gas.dVelRow u j) u :=
  (C03_vars air u 0 hr).1 j

theorem hasGrad_varsH (hr : u 0 ≠ 0) : HasGrad G.varsH (G.dVarsH u) u := by
  have h := ((HasGrad.coord 3 (u := u)).add (hasGrad_varsP (G := G) hr)).div (HasGrad.coord 0) hr
  refine h.congr ?_
  funext i; fin_cases i <;> simp [Gas.dVarsH, varsP_eq hr] <;> field_simp

theorem hasGrad_c (h : Adm G u) : HasGrad (cSide G) (G.dSoundSpeed (u 0) (G.varsP u) (G.dPressure u) (cSide G u)) u := by
  have hq : 0 < G.g * G.varsP u / u 0 := div_pos (mul_pos (by linarith [h.g1]) h.vp) h.rho
  have h1 := ((hasGrad_varsP (G := G) h.rho').cmul G.g).div (HasGrad.coord 0) h.rho'
  have h2 := h1.sqrt hq.ne'
  have hc : Real.sqrt (G.g * G.varsP u / u 0) = cSide G u := rfl
  have hc0 := h.c_pos.ne'
  have hr := h.rho'
  refine h2.congr ?_
  rw [hc]
  funext i; fin_cases i <;> simp [Gas.dSoundSpeed] <;> field_simp

theorem hasGrad_mach (h : Adm G u) (n : V2) : HasGrad (fun v => Gas.varsVn v n / cSide G v)
    (ausmDM u n (Gas.varsVn u n) (cSide G u) (G.dSoundSpeed (u 0) (G.varsP u) (G.dPressure u) (cSide G u))) u := by
  have hc0 := h.c_pos.ne'
  have hr := h.rho'
  refine ((hasGrad_varsVn hr n).div (hasGrad_c h) hc0).congr ?_
  funext i
  fin_cases i <;> simp [ausmDM, Gas.dVarsVn, Gas.dVelRow] <;> field_simp <;> ring

/-! ### Derivatives of the splitting functions, including at Mach ±1 -/

/-- A function within a quadratic of its tangent is differentiable. -/
theorem hasDerivAt_of_quad {f : ℝ → ℝ} {x d C : ℝ}
    (h : ∀ᶠ y in nhds x, |f y - f x - d * (y - x)| ≤ C * (y - x) ^ 2) : HasDerivAt f d x := by
  rw [hasDerivAt_iff_isLittleO]
  have h1 : (fun y => f y - f x - (y - x) • d) =O[nhds x] fun y => (y - x) ^ 2 := by
    apply Asymptotics.IsBigO.of_bound C
    filter_upwards [h] with y hy
    simp only [smul_eq_mul, Real.norm_eq_abs, abs_pow, sq_abs]
    rw [mul_comm (y - x) d]; exact hy
  refine h1.trans_isLittleO ?_
  have h2 : (fun y : ℝ => y - x) =o[nhds x] fun _ => (1:ℝ) := by
    rw [Asymptotics.isLittleO_one_iff]
    have : Filter.Tendsto (fun y : ℝ => y - x) (nhds x) (nhds (x - x)) :=
      (continuous_id.sub continuous_const).tendsto x
    simpa using this
  have h3 := (Asymptotics.isBigO_refl (fun y : ℝ => y - x) (nhds x)).mul_isLittleO h2
  simpa [pow_two] using h3

theorem ausmML_deriv (x : ℝ) :
    HasDerivAt ausmML (if |x| ≤ 1 then 1 / 2 * (x + 1) else if x < -1 then 0 else 1) x := by
  apply hasDerivAt_of_quad (C := 1)
  filter_upwards with y
  have key : ∀ z : ℝ, (|z| ≤ 1 ∧ -1 ≤ z ∧ z ≤ 1) ∨ (¬ |z| ≤ 1 ∧ z < -1) ∨ (¬ |z| ≤ 1 ∧ ¬ z < -1 ∧ 1 < z) := by
    intro z
    by_cases h : |z| ≤ 1
    · left; exact ⟨h, (abs_le.mp h).1, (abs_le.mp h).2⟩
    · right
      rcases lt_abs.mp (not_le.mp h) with h1 | h1
      · right; exact ⟨h, by linarith, h1⟩
      · left; exact ⟨h, by linarith⟩
  rcases key x with ⟨a, a1, a2⟩ | ⟨a, a1⟩ | ⟨a, a1, a2⟩ <;>
  rcases key y with ⟨b, b1, b2⟩ | ⟨b, b1⟩ | ⟨b, b1, b2⟩ <;>
  simp only [ausmML, a, b, a1, b1, if_true, if_false] <;>
  rw [abs_le] <;> constructor <;> nlinarith [sq_nonneg (y - x), sq_nonneg (y + 1), sq_nonneg (x - 1), sq_nonneg (x + 1), sq_nonneg (y - 1)]

theorem ausmPL_deriv (x : ℝ) :
    HasDerivAt (fun M => ausmPL M 1) (if |x| ≤ 1 then 3 / 4 * (1 - x * x) else 0) x := by
  apply hasDerivAt_of_quad (C := 3)
  filter_upwards with y
  have key : ∀ z : ℝ, (|z| ≤ 1 ∧ -1 ≤ z ∧ z ≤ 1) ∨ (¬ |z| ≤ 1 ∧ z < -1) ∨ (¬ |z| ≤ 1 ∧ ¬ z < -1 ∧ 1 < z) := by
    intro z
    by_cases h : |z| ≤ 1
    · left; exact ⟨h, (abs_le.mp h).1, (abs_le.mp h).2⟩
    · right
      rcases lt_abs.mp (not_le.mp h) with h1 | h1
      · right; exact ⟨h, by linarith, h1⟩
      · left; exact ⟨h, by linarith⟩
  have q0 : ∀ z : ℝ, -1 ≤ z → z ≤ 1 → 0 ≤ 1 / 4 * (z + 1) * (z + 1) * 1 * (2 - z) ∧
      1 / 4 * (z + 1) * (z + 1) * 1 * (2 - z) ≤ 3 / 4 * (z + 1) ^ 2 ∧
      1 / 4 * (z + 1) * (z + 1) * 1 * (2 - z) ≤ 1 ∧
      1 - 1 / 4 * (z + 1) * (z + 1) * 1 * (2 - z) ≤ 3 / 4 * (1 - z) ^ 2 := by
    intro z h1 h2
    have p1 : 0 ≤ (z + 1) ^ 2 * (1 + z) := mul_nonneg (sq_nonneg _) (by linarith)
    have p2 : 0 ≤ (z + 1) ^ 2 * (2 - z) := mul_nonneg (sq_nonneg _) (by linarith)
    have p3 : 0 ≤ (1 - z) ^ 2 * (2 + z) := mul_nonneg (sq_nonneg _) (by linarith)
    have p4 : 0 ≤ (1 - z) ^ 2 * (1 - z) := mul_nonneg (sq_nonneg _) (by linarith)
    refine ⟨?_, ?_, ?_, ?_⟩ <;> nlinarith
  have e0 : ∀ s t : ℝ, 0 ≤ s → s ≤ t → s ^ 2 ≤ t ^ 2 := fun s t h1 h2 => pow_le_pow_left₀ h1 h2 2
  rcases key x with ⟨a, a1, a2⟩ | ⟨a, a1⟩ | ⟨a, a1, a2⟩ <;>
  rcases key y with ⟨b, b1, b2⟩ | ⟨b, b1⟩ | ⟨b, b1, b2⟩ <;>
  simp only [ausmPL, a, b, a1, b1, if_true, if_false]
  · have e : 1 / 4 * (y + 1) * (y + 1) * 1 * (2 - y) - 1 / 4 * (x + 1) * (x + 1) * 1 * (2 - x)
        - 3 / 4 * (1 - x * x) * (y - x) = (-(2 * x + y) / 4) * (y - x) ^ 2 := by ring
    rw [e, abs_mul, abs_of_nonneg (sq_nonneg (y - x))]
    refine mul_le_mul_of_nonneg_right ?_ (sq_nonneg _)
    rw [abs_le]; constructor <;> linarith
  · obtain ⟨h1, h2, h3, h4⟩ := q0 x a1 a2
    have k1 := e0 (x + 1) (x - y) (by linarith) (by linarith)
    have k2 : 0 ≤ (1 - x) * (1 + x) * (x - y) := mul_nonneg (mul_nonneg (by linarith) (by linarith)) (by linarith)
    have k3 : (1 - x) * (1 + x) * (x - y) ≤ 2 * (x - y) * (x - y) := by
      have h5 : (1 - x) * (1 + x) ≤ 2 * (x - y) :=
        mul_le_mul (by linarith) (by linarith) (by linarith) (by norm_num)
      exact mul_le_mul_of_nonneg_right h5 (by linarith)
    have k4 := sq_nonneg (x - y)
    rw [abs_le]; constructor <;> nlinarith
  · obtain ⟨h1, h2, h3, h4⟩ := q0 x a1 a2
    have k1 := e0 (1 - x) (y - x) (by linarith) (by linarith)
    have k2 : 0 ≤ (1 + x) * (1 - x) * (y - x) := mul_nonneg (mul_nonneg (by linarith) (by linarith)) (by linarith)
    have k3 : (1 + x) * (1 - x) * (y - x) ≤ 2 * (y - x) * (y - x) := by
      have h5 : (1 + x) * (1 - x) ≤ 2 * (y - x) :=
        mul_le_mul (by linarith) (by linarith) (by linarith) (by norm_num)
      exact mul_le_mul_of_nonneg_right h5 (by linarith)
    have k4 := sq_nonneg (x - y)
    rw [abs_le]; constructor <;> nlinarith
  · obtain ⟨h1, h2, h3, h4⟩ := q0 y b1 b2
    have k1 := e0 (y + 1) (y - x) (by linarith) (by linarith)
    rw [abs_le]; constructor <;> nlinarith [sq_nonneg (y - x)]
  · simp; positivity
  · have k1 := e0 2 (y - x) (by norm_num) (by linarith)
    rw [abs_le]; constructor <;> nlinarith
  · obtain ⟨h1, h2, h3, h4⟩ := q0 y b1 b2
    have k1 := e0 (1 - y) (x - y) (by linarith) (by linarith)
    rw [abs_le]; constructor <;> nlinarith [sq_nonneg (y - x)]
  · have k1 := e0 2 (x - y) (by norm_num) (by linarith)
    rw [abs_le]; constructor <;> nlinarith
  · simp; positivity

theorem ausmPL_scale (M p : ℝ) : ausmPL M p = ausmPL M 1 * p := by
  unfold ausmPL; split_ifs <;> ring

theorem ausmMR_deriv (x : ℝ) :
    HasDerivAt ausmMR (if |x| ≤ 1 then -(1 / 2) * (x - 1) else if x < -1 then 1 else 0) x := by
  have h := ((ausmML_deriv (-x)).comp x (hasDerivAt_neg x)).neg
  have e : (fun M => - (ausmML ∘ Neg.neg) M) = ausmMR := by
    funext M; simp [(ausm_split_neg M 1).1]
  have e' : -(ausmML ∘ Neg.neg) = ausmMR := e
  rw [e'] at h
  refine h.congr_deriv ?_
  rw [abs_neg]
  by_cases h1 : |x| ≤ 1
  · simp only [h1, if_true]; ring
  · simp only [h1, if_false]
    rcases lt_abs.mp (not_le.mp h1) with h2 | h2
    · have a1 : -x < -1 := by linarith
      have a2 : ¬ x < -1 := by linarith
      simp [a1, a2]
    · have a1 : ¬ -x < -1 := by linarith
      have a2 : x < -1 := by linarith
      simp [a1, a2]

theorem ausmPR_deriv (x : ℝ) :
    HasDerivAt (fun M => ausmPR M 1) (if |x| ≤ 1 then -(3 / 4) * (1 - x * x) else 0) x := by
  have h := (ausmPL_deriv (-x)).comp x (hasDerivAt_neg x)
  have e : ((fun M => ausmPL M 1) ∘ Neg.neg) = fun M => ausmPR M 1 := by
    funext M; simp [(ausm_split_neg M 1).2.2.1]
  rw [e] at h
  refine h.congr_deriv ?_
  rw [abs_neg]; split_ifs <;> ring

theorem ausmPR_scale (M p : ℝ) : ausmPR M p = ausmPR M 1 * p := by
  unfold ausmPR; split_ifs <;> ring

/-- Derivative row of an absolute value away from zero, as written in the code. -/
theorem hasGrad_abs {f : St → ℝ} {f' : St} (h : HasGrad f f' u) (h0 : f u ≠ 0) :
    HasGrad (fun v => |f v|) (fun k => sgn (f u) * f' k) u := by
  refine h.comp ?_
  unfold sgn
  split_ifs with hs
  · exact hasDerivAt_abs_pos (lt_of_le_of_ne hs (Ne.symm h0))
  · exact hasDerivAt_abs_neg (not_le.mp hs)

theorem hasGrad_ausmML {M : St → ℝ} {dm : St} (h : HasGrad M dm u) :
    HasGrad (fun v => ausmML (M v)) (ausmDML (M u) dm) u := by
  refine (h.comp (ausmML_deriv (M u))).congr ?_
  funext k; simp only [ausmDML]; split_ifs <;> ring

theorem hasGrad_ausmMR {M : St → ℝ} {dm : St} (h : HasGrad M dm u) :
    HasGrad (fun v => ausmMR (M v)) (ausmDMR (M u) dm) u := by
  refine (h.comp (ausmMR_deriv (M u))).congr ?_
  funext k; simp only [ausmDMR]; split_ifs <;> ring

theorem hasGrad_ausmPL {M p : St → ℝ} {dm dp : St} (h : HasGrad M dm u) (hp : HasGrad p dp u) :
    HasGrad (fun v => ausmPL (M v) (p v)) (ausmDPL (M u) (p u) dm dp) u := by
  have h1 := (h.comp (ausmPL_deriv (M u))).mul hp
  have e : (fun v => ausmPL (M v) (p v)) = fun v => ausmPL (M v) 1 * p v := by
    funext v; rw [ausmPL_scale]
  rw [e]
  refine h1.congr ?_
  funext k
  simp only [ausmDPL, ausmDML, ausmML, ausmPL]
  split_ifs <;> ring

theorem hasGrad_ausmPR {M p : St → ℝ} {dm dp : St} (h : HasGrad M dm u) (hp : HasGrad p dp u) :
    HasGrad (fun v => ausmPR (M v) (p v)) (ausmDPR (M u) (p u) dm dp) u := by
  have h1 := (h.comp (ausmPR_deriv (M u))).mul hp
  have e : (fun v => ausmPR (M v) (p v)) = fun v => ausmPR (M v) 1 * p v := by
    funext v; rw [ausmPR_scale]
  rw [e]
  refine h1.congr ?_
  funext k
  simp only [ausmDPR, ausmDMR, ausmMR, ausmPR]
  split_ifs <;> ring

/-- Left derivative of the assembly step, from the derivatives of its ingredients. -/
theorem hasGrad_ausmCore_left {Mh ph p c : St → ℝ} {dM dP dp dc : St} (pj cj : ℝ)
    (hM : HasGrad Mh dM ul) (hP : HasGrad ph dP ul) (hp : HasGrad p dp ul) (hc : HasGrad c dc ul)
    (h0 : Mh ul ≠ 0) (i : Fin 4) :
    HasGrad (fun v => ausmCore v ur n (Mh v) (ph v) (p v) pj (c v) cj i)
      (ausmDL ul ur n (Mh ul) (p ul) pj (c ul) cj dM dP dp dc i) ul := by
  have hA := hasGrad_abs hM h0
  have c0 := fun k : Fin 4 => (HasGrad.coord k (u := ul)).mul hc
  fin_cases i
  · have h1 := ((hM.cmul (1/2)).mul ((c0 0).add (HasGrad.const (ur 0 * cj)))).sub
      ((hA.cmul (1/2)).mul ((HasGrad.const (ur 0 * cj)).sub (c0 0)))
    have e : (fun v => ausmCore v ur n (Mh v) (ph v) (p v) pj (c v) cj 0) = fun v =>
      1 / 2 * Mh v * (v 0 * c v + ur 0 * cj) - 1 / 2 * |Mh v| * (ur 0 * cj - v 0 * c v) := by
      funext v; simp [ausmCore]; ring
    refine (e ▸ h1 : HasGrad (fun v => ausmCore v ur n (Mh v) (ph v) (p v) pj (c v) cj 0) _ ul).congr ?_
    funext k; fin_cases k <;> simp [ausmDL] <;> ring
  · have h1 := (((hM.cmul (1/2)).mul ((c0 1).add (HasGrad.const (ur 1 * cj)))).sub
      ((hA.cmul (1/2)).mul ((HasGrad.const (ur 1 * cj)).sub (c0 1)))).add (hP.mul (HasGrad.const (n 0)))
    have e : (fun v => ausmCore v ur n (Mh v) (ph v) (p v) pj (c v) cj 1) = fun v =>
      1 / 2 * Mh v * (v 1 * c v + ur 1 * cj) - 1 / 2 * |Mh v| * (ur 1 * cj - v 1 * c v) + ph v * n 0 := by
      funext v; simp [ausmCore]; ring
    refine (e ▸ h1 : HasGrad (fun v => ausmCore v ur n (Mh v) (ph v) (p v) pj (c v) cj 1) _ ul).congr ?_
    funext k; fin_cases k <;> simp [ausmDL] <;> ring
  · have h1 := (((hM.cmul (1/2)).mul ((c0 2).add (HasGrad.const (ur 2 * cj)))).sub
      ((hA.cmul (1/2)).mul ((HasGrad.const (ur 2 * cj)).sub (c0 2)))).add (hP.mul (HasGrad.const (n 1)))
    have e : (fun v => ausmCore v ur n (Mh v) (ph v) (p v) pj (c v) cj 2) = fun v =>
      1 / 2 * Mh v * (v 2 * c v + ur 2 * cj) - 1 / 2 * |Mh v| * (ur 2 * cj - v 2 * c v) + ph v * n 1 := by
      funext v; simp [ausmCore]; ring
    refine (e ▸ h1 : HasGrad (fun v => ausmCore v ur n (Mh v) (ph v) (p v) pj (c v) cj 2) _ ul).congr ?_
    funext k; fin_cases k <;> simp [ausmDL] <;> ring
  · have hE := hc.mul ((HasGrad.coord 3).add hp)
    have h1 := ((hM.cmul (1/2)).mul (hE.add (HasGrad.const (cj * (ur 3 + pj))))).sub
      ((hA.cmul (1/2)).mul ((HasGrad.const (cj * (ur 3 + pj))).sub hE))
    have e : (fun v => ausmCore v ur n (Mh v) (ph v) (p v) pj (c v) cj 3) = fun v =>
      1 / 2 * Mh v * (c v * (v 3 + p v) + cj * (ur 3 + pj)) - 1 / 2 * |Mh v| * (cj * (ur 3 + pj) - c v * (v 3 + p v)) := by
      funext v; simp [ausmCore]; ring
    refine (e ▸ h1 : HasGrad (fun v => ausmCore v ur n (Mh v) (ph v) (p v) pj (c v) cj 3) _ ul).congr ?_
    funext k; fin_cases k <;> simp [ausmDL] <;> ring

/-- Right derivative of the assembly step. -/
theorem hasGrad_ausmCore_right {Mh ph p c : St → ℝ} {dM dP dp dc : St} (pi ci : ℝ)
    (hM : HasGrad Mh dM ur) (hP : HasGrad ph dP ur) (hp : HasGrad p dp ur) (hc : HasGrad c dc ur)
    (h0 : Mh ur ≠ 0) (i : Fin 4) :
    HasGrad (fun v => ausmCore ul v n (Mh v) (ph v) pi (p v) ci (c v) i)
      (ausmDR ul ur n (Mh ur) pi (p ur) ci (c ur) dM dP dp dc i) ur := by
  have hA := hasGrad_abs hM h0
  have c0 := fun k : Fin 4 => (HasGrad.coord k (u := ur)).mul hc
  fin_cases i
  · have h1 := ((hM.cmul (1/2)).mul ((HasGrad.const (ul 0 * ci)).add (c0 0))).sub
      ((hA.cmul (1/2)).mul ((c0 0).sub (HasGrad.const (ul 0 * ci))))
    have e : (fun v => ausmCore ul v n (Mh v) (ph v) pi (p v) ci (c v) 0) = fun v =>
      1 / 2 * Mh v * (ul 0 * ci + v 0 * c v) - 1 / 2 * |Mh v| * (v 0 * c v - ul 0 * ci) := by
      funext v; simp [ausmCore]; ring
    refine (e ▸ h1 : HasGrad (fun v => ausmCore ul v n (Mh v) (ph v) pi (p v) ci (c v) 0) _ ur).congr ?_
    funext k; fin_cases k <;> simp [ausmDR] <;> ring
  · have h1 := (((hM.cmul (1/2)).mul ((HasGrad.const (ul 1 * ci)).add (c0 1))).sub
      ((hA.cmul (1/2)).mul ((c0 1).sub (HasGrad.const (ul 1 * ci))))).add (hP.mul (HasGrad.const (n 0)))
    have e : (fun v => ausmCore ul v n (Mh v) (ph v) pi (p v) ci (c v) 1) = fun v =>
      1 / 2 * Mh v * (ul 1 * ci + v 1 * c v) - 1 / 2 * |Mh v| * (v 1 * c v - ul 1 * ci) + ph v * n 0 := by
      funext v; simp [ausmCore]; ring
    refine (e ▸ h1 : HasGrad (fun v => ausmCore ul v n (Mh v) (ph v) pi (p v) ci (c v) 1) _ ur).congr ?_
    funext k; fin_cases k <;> simp [ausmDR] <;> ring
  · have h1 := (((hM.cmul (1/2)).mul ((HasGrad.const (ul 2 * ci)).add (c0 2))).sub
      ((hA.cmul (1/2)).mul ((c0 2).sub (HasGrad.const (ul 2 * ci))))).add (hP.mul (HasGrad.const (n 1)))
    have e : (fun v => ausmCore ul v n (Mh v) (ph v) pi (p v) ci (c v) 2) = fun v =>
      1 / 2 * Mh v * (ul 2 * ci + v 2 * c v) - 1 / 2 * |Mh v| * (v 2 * c v - ul 2 * ci) + ph v * n 1 := by
      funext v; simp [ausmCore]; ring
    refine (e ▸ h1 : HasGrad (fun v => ausmCore ul v n (Mh v) (ph v) pi (p v) ci (c v) 2) _ ur).congr ?_
    funext k; fin_cases k <;> simp [ausmDR] <;> ring
  · have hE := hc.mul ((HasGrad.coord 3).add hp)
    have h1 := ((hM.cmul (1/2)).mul ((HasGrad.const (ci * (ul 3 + pi))).add hE)).sub
      ((hA.cmul (1/2)).mul (hE.sub (HasGrad.const (ci * (ul 3 + pi)))))
    have e : (fun v => ausmCore ul v n (Mh v) (ph v) pi (p v) ci (c v) 3) = fun v =>
      1 / 2 * Mh v * (ci * (ul 3 + pi) + c v * (v 3 + p v)) - 1 / 2 * |Mh v| * (c v * (v 3 + p v) - ci * (ul 3 + pi)) := by
      funext v; simp [ausmCore]; ring
    refine (e ▸ h1 : HasGrad (fun v => ausmCore ul v n (Mh v) (ph v) pi (p v) ci (c v) 3) _ ur).congr ?_
    funext k; fin_cases k <;> simp [ausmDR] <;> ring

/-- C18: the AUSM Jacobian is exact wherever the interface Mach number is not zero, including at
sonic points of either side. -/
theorem C18_ausm_exact (hl : Adm G ul) (hr : Adm G ur) (n : V2)
    (h0 : ausmML (Gas.varsVn ul n / cSide G ul) + ausmMR (Gas.varsVn ur n / cSide G ur) ≠ 0) :
    IsFluxJac (fun a b => ausm G a b n) (ausmJac G ul ur n) ul ur := by
  intro i
  constructor
  · have hm := hasGrad_mach hl n
    have hp := hasGrad_varsP (G := G) hl.rho'
    have hM := (hasGrad_ausmML hm).add (HasGrad.const (u := ul) (ausmMR (Gas.varsVn ur n / cSide G ur)))
    have hP := (hasGrad_ausmPL hm hp).add (HasGrad.const (u := ul) (ausmPR (Gas.varsVn ur n / cSide G ur) (G.varsP ur)))
    have h := hasGrad_ausmCore_left (ur := ur) (n := n) (G.varsP ur) (cSide G ur) hM hP hp (hasGrad_c hl) h0 i
    refine h.congr ?_
    funext k
    simp only [ausmJac, neg_neg]
    congr 1 <;> (funext q; simp)
  · have hm := hasGrad_mach hr n
    have hp := hasGrad_varsP (G := G) hr.rho'
    have hM := (HasGrad.const (u := ur) (ausmML (Gas.varsVn ul n / cSide G ul))).add (hasGrad_ausmMR hm)
    have hP := (HasGrad.const (u := ur) (ausmPL (Gas.varsVn ul n / cSide G ul) (G.varsP ul))).add (hasGrad_ausmPR hm hp)
    have h := hasGrad_ausmCore_right (ul := ul) (n := n) (G.varsP ul) (cSide G ul) hM hP hp (hasGrad_c hr) h0 i
    refine h.congr ?_
    funext k
    simp only [ausmJac]
    congr 1 <;> (funext q; simp)

/-- Concrete case: supersonic states. -/
example : Adm air uS4 ∧ Adm air uS5 ∧ ausmML (Gas.varsVn uS4 ![1, 0] / cSide air uS4)
    + ausmMR (Gas.varsVn uS5 ![1, 0] / cSide air uS5) ≠ 0 := by
  refine ⟨adm_uS4, adm_uS5, ?_⟩
  rw [vn_uS4, vn_uS5, c_uS4, c_uS5]
  norm_num [ausmML, ausmMR, abs_of_pos]

theorem ausm_split_sum (M p : ℝ) (dm dp : St) (k : Fin 4) :
    ausmML M + ausmMR M = M ∧ ausmDML M dm k + ausmDMR M dm k = dm k ∧
    ausmDPL M p dm dp k + ausmDPR M p dm dp k = dp k := by
  simp only [ausmML, ausmMR, ausmDML, ausmDMR, ausmDPL, ausmDPR]
  split_ifs <;> refine ⟨by ring, by ring, by ring⟩

/-- C18: at equal states the AUSM blocks add up to the analytical Jacobian. -/
theorem C18_ausm_sum (h : Adm G u) (n : V2) : SumsTo (ausmJac G u u n) (G.dEulerFlux u n) := by
  have hm := hasGrad_mach h n
  have hp := hasGrad_varsP (G := G) h.rho'
  have hc := hasGrad_c h
  have hc0 := h.c_pos.ne'
  have hr := h.rho'
  intro i k
  have s0 := ausm_split_sum (Gas.varsVn u n / cSide G u) (G.varsP u)
    (ausmDM u n (Gas.varsVn u n) (cSide G u) (G.dSoundSpeed (u 0) (G.varsP u) (G.dPressure u) (cSide G u)))
    (G.dPressure u)
  have hcev : ∀ᶠ v in nhds u, cSide G v ≠ 0 := hc.continuousAt.eventually_ne hc0
  have hrev : ∀ᶠ v in nhds u, v 0 ≠ 0 := (HasGrad.coord 0 (u := u)).continuousAt.eventually_ne hr
  have hE := C03_eulerFlux G u n hr i
  simp only [ausmJac, neg_neg]
  rw [(s0 0).1]
  obtain ⟨-, s1, s2⟩ := s0 k
  fin_cases i
  · have hF : HasGrad (fun v => G.eulerFlux v n 0) _ u :=
      (hm.mul ((HasGrad.coord 0).mul hc)).congr_of_eventuallyEq (by
        filter_upwards [hcev, hrev] with v h1 h2
        rw [eulerFlux_eq h2]; simp [Gas.dirFlux]; field_simp)
    have e := congrFun (hE.unique hF) k
    refine Eq.trans ?_ e.symm
    rw [← s1]
    fin_cases k <;> simp [ausmDL, ausmDR] <;> ring
  · have hF : HasGrad (fun v => G.eulerFlux v n 1) _ u :=
      ((hm.mul ((HasGrad.coord 1).mul hc)).add (hp.mul (HasGrad.const (n 0)))).congr_of_eventuallyEq (by
        filter_upwards [hcev, hrev] with v h1 h2
        rw [eulerFlux_eq h2]; simp [Gas.dirFlux]; field_simp)
    have e := congrFun (hE.unique hF) k
    refine Eq.trans ?_ e.symm
    rw [← s1]
    conv_rhs => rw [← s2]
    fin_cases k <;> simp [ausmDL, ausmDR] <;> ring
  · have hF : HasGrad (fun v => G.eulerFlux v n 2) _ u :=
      ((hm.mul ((HasGrad.coord 2).mul hc)).add (hp.mul (HasGrad.const (n 1)))).congr_of_eventuallyEq (by
        filter_upwards [hcev, hrev] with v h1 h2
        rw [eulerFlux_eq h2]; simp [Gas.dirFlux]; field_simp)
    have e := congrFun (hE.unique hF) k
    refine Eq.trans ?_ e.symm
    rw [← s1]
    conv_rhs => rw [← s2]
    fin_cases k <;> simp [ausmDL, ausmDR] <;> ring
  · have hF : HasGrad (fun v => G.eulerFlux v n 3) _ u :=
      (hm.mul (hc.mul ((HasGrad.coord 3).add hp))).congr_of_eventuallyEq (by
        filter_upwards [hcev, hrev] with v h1 h2
        rw [eulerFlux_eq h2]; simp [Gas.dirFlux]; field_simp)
    have e := congrFun (hE.unique hF) k
    refine Eq.trans ?_ e.symm
    rw [← s1]
    fin_cases k <;> simp [ausmDL, ausmDR] <;> ring

example : Adm air uA := adm_uA

/-! ### Schemes without a Jacobian -/

/-- C18 refuted for Van Leer: the Jacobian routine always throws. -/
theorem C18_vanLeer_refuted : ¬ ∃ J, vanLeerJac = .ok J := by
  rintro ⟨J, h⟩; simp [vanLeerJac] at h

/-- C18 refuted for AUSM+: the routine is empty, so whatever the output arrays held is returned; for
any states some previous contents are not the Jacobian. -/
theorem C18_ausmPlus_refuted (G : Gas) (ul ur : St) (n : V2) :
    ∃ before, ¬ IsFluxJac (fun a b => ausmPlus G a b n) (ausmPlusJac before ul ur n) ul ur := by
  by_contra hcon
  push Not at hcon
  have h1 := (hcon ⟨fun _ _ => 0, fun _ _ => 0⟩ 0).2
  have h2 := (hcon ⟨fun _ _ => 0, fun _ _ => 1⟩ 0).2
  have := congrFun (h1.unique h2) 0
  simp [ausmPlusJac] at this

/-! ### The second Lax-Friedrichs Jacobian -/

/-- The derivative of `|vn| + c` (specification of what `dedu` should hold). -/
noncomputable def eigRow (G : Gas) (u : St) (n : V2) : St := fun k =>
  sgn (Gas.varsVn u n) * Gas.dVarsVn u n k
    + G.dSoundSpeed (u 0) (G.varsP u) (G.dPressure u) (cSide G u) k

theorem hasGrad_eig (h : Adm G u) (n : V2) (h0 : Gas.varsVn u n ≠ 0) :
    HasGrad (fun v => |Gas.varsVn v n| + cSide G v) (eigRow G u n) u :=
  (hasGrad_abs (hasGrad_varsVn h.rho' n) h0).add (hasGrad_c h)

/-- C18, second Lax-Friedrichs Jacobian: when the left wave speed is strictly the larger one, the
blocks are exact if and only if the spectral-radius derivative in the code agrees with the true one
in every component that multiplies a nonzero jump. -/
theorem C18_llf2_exact_iff (hl : Adm G ul) (hr : Adm G ur) (n : V2) (h0 : Gas.varsVn ul n ≠ 0)
    (hmax : |Gas.varsVn ur n| + cSide G ur < |Gas.varsVn ul n| + cSide G ul) :
    IsFluxJac (fun a b => llf G a b n) (llfJac2 G ul ur n) ul ur ↔
      ∀ i k, (llfDe G ul n k - eigRow G ul n k) * (ur i - ul i) = 0 := by
  have hev : ∀ᶠ v in nhds ul, |Gas.varsVn ur n| + cSide G ur < |Gas.varsVn v n| + cSide G v :=
    (hasGrad_eig hl n h0).continuousAt.eventually (lt_mem_nhds hmax)
  have hvr : ContinuousAt (fun v => |Gas.varsVn v n| + cSide G v) ur :=
    ((hasGrad_varsVn hr.rho' n).continuousAt.abs).add (hasGrad_c hr).continuousAt
  have hev2 : ∀ᶠ v in nhds ur, |Gas.varsVn v n| + cSide G v < |Gas.varsVn ul n| + cSide G ul :=
    hvr.eventually (gt_mem_nhds hmax)
  have hL : ∀ i, HasGrad (fun v => llf G v ur n i) (fun k =>
      - (llfJac2 G ul ur n).dfdl i k - 1 / 2 * ((eigRow G ul n k - llfDe G ul n k) * (ur i - ul i))) ul := by
    intro i
    have h1 := (C03_eulerFlux G ul n hl.rho' i).add (HasGrad.const (G.eulerFlux ur n i))
    have h2 := (h1.sub ((hasGrad_eig hl n h0).mul ((HasGrad.const (ur i)).sub (HasGrad.coord i)))).cmul (1/2)
    have h3 : HasGrad (fun v => llf G v ur n i) _ ul := h2.congr_of_eventuallyEq (by
      filter_upwards [hev] with v hv
      simp only [llf, llfEig]; rw [if_pos hv])
    refine h3.congr ?_
    funext k
    have e1 : llfEigJ (Gas.varsVn ul n) (cSide G ul) (Gas.varsVn ur n) (cSide G ur)
        = |Gas.varsVn ul n| + cSide G ul := if_pos hmax.le
    simp only [llfJac2, e1, if_pos (show |Gas.varsVn ul n| + cSide G ul ≥ _ from hmax.le)]
    by_cases h : i = k
    · subst h; simp; ring
    · have h' : ¬ k = i := fun q => h q.symm
      simp [h, Pi.single_apply, h']; ring
  have hR : ∀ i, HasGrad (fun v => llf G ul v n i) ((llfJac2 G ul ur n).dfdr i) ur := by
    intro i
    have h1 := (HasGrad.const (G.eulerFlux ul n i)).add (C03_eulerFlux G ur n hr.rho' i)
    have h2 := (h1.sub (((HasGrad.coord i).sub (HasGrad.const (ul i))).cmul
      (|Gas.varsVn ul n| + cSide G ul))).cmul (1/2)
    have h3 : HasGrad (fun v => llf G ul v n i) _ ur := h2.congr_of_eventuallyEq (by
      filter_upwards [hev2] with v hv
      simp only [llf, llfEig]; rw [if_pos hv])
    refine h3.congr ?_
    funext k
    have e1 : llfEigJ (Gas.varsVn ul n) (cSide G ul) (Gas.varsVn ur n) (cSide G ur)
        = |Gas.varsVn ul n| + cSide G ul := if_pos hmax.le
    simp only [llfJac2, e1, if_pos (show |Gas.varsVn ul n| + cSide G ul ≥ _ from hmax.le)]
    by_cases h : i = k
    · subst h; simp
    · have h' : ¬ k = i := fun q => h q.symm
      simp [h, Pi.single_apply, h']
  constructor
  · intro hJ i k
    have := congrFun ((hL i).unique (hJ i).1) k
    linarith
  · intro hz i
    refine ⟨(hL i).congr ?_, hR i⟩
    funext k
    have := hz i k
    linarith

/-- The `dedu` row of the code is right for unit density. -/
theorem llfDe_unit (h : Adm G u) (n : V2) (h0 : Gas.varsVn u n ≠ 0) (h1 : u 0 = 1) :
    llfDe G u n = eigRow G u n := by
  have hc : Real.sqrt (G.g * (G.g - 1) / u 0 * (u 3 - (u 1 * u 1 + u 2 * u 2) / (2 * u 0))) = cSide G u := by
    unfold cSide Gas.soundSpeed
    rw [varsP_eq h.rho']
    congr 1
    simp [Gas.pressure, Gas.pressureOfInternal, dot, mom, h1]; ring
  have hc0 := h.c_pos.ne'
  funext k
  simp only [llfDe, eigRow, hc]
  rw [varsP_eq h.rho']
  unfold sgn
  rcases lt_or_gt_of_ne h0 with hn | hp
  · have a1 : ¬ Gas.varsVn u n > 0 := by linarith
    have a2 : ¬ Gas.varsVn u n ≥ 0 := by linarith
    simp only [a1, a2, if_false]
    fin_cases k <;> simp [Gas.dVarsVn, Gas.dVelRow, Gas.dSoundSpeed, Gas.dPressure, Gas.pressure, Gas.pressureOfInternal,
      dot, mom, h1, abs_of_neg hn] <;> (try rw [varsVn_def]) <;> (try simp [h1, Gas.vel]) <;> field_simp <;> ring
  · have a2 : Gas.varsVn u n ≥ 0 := by linarith
    simp only [hp, a2, if_true]
    fin_cases k <;> simp [Gas.dVarsVn, Gas.dVelRow, Gas.dSoundSpeed, Gas.dPressure, Gas.pressure, Gas.pressureOfInternal,
      dot, mom, h1, abs_of_pos hp] <;> (try rw [varsVn_def]) <;> (try simp [h1, Gas.vel]) <;> field_simp <;> ring

/-- C18 (partial) for the second Lax-Friedrichs Jacobian: exact when the side with the larger wave
speed is the left one and has unit density and nonzero normal velocity.  The full statement (any
density) fails, see `C18_llf2_refuted`. -/
theorem C18_llf2_partial (hl : Adm G ul) (hr : Adm G ur) (n : V2) (h0 : Gas.varsVn ul n ≠ 0)
    (hmax : |Gas.varsVn ur n| + cSide G ur < |Gas.varsVn ul n| + cSide G ul) (h1 : ul 0 = 1) :
    IsFluxJac (fun a b => llf G a b n) (llfJac2 G ul ur n) ul ur := by
  rw [C18_llf2_exact_iff hl hr n h0 hmax, llfDe_unit hl n h0 h1]
  intro i k; ring

/-- C18: at equal states the second Lax-Friedrichs Jacobian sums to the analytical one. -/
theorem C18_llf2_sum (G : Gas) (u : St) (n : V2) : SumsTo (llfJac2 G u u n) (G.dEulerFlux u n) := by
  intro i k; simp only [llfJac2]; split_ifs <;> ring

/-- C18 refuted for the second Lax-Friedrichs Jacobian: at density 7/5 the derivative of the spectral
radius is wrong (`|vn/ρ²|` is used for `|vn|/ρ`). -/
theorem C18_llf2_refuted : Adm air uS5 ∧ Adm air uS4 ∧
    ¬ IsFluxJac (fun a b => llf air a b ![1, 0]) (llfJac2 air uS5 uS4 ![1, 0]) uS5 uS4 := by
  refine ⟨adm_uS5, adm_uS4, ?_⟩
  rw [C18_llf2_exact_iff adm_uS5 adm_uS4 _ (by rw [vn_uS5]; norm_num)
    (by rw [vn_uS4, vn_uS5, c_uS4, c_uS5]; norm_num [abs_of_pos])]
  intro h
  have h0 := h 1 0
  have hs : Real.sqrt (air.g * (air.g - 1) / uS5 0 * (uS5 3 - (uS5 1 * uS5 1 + uS5 2 * uS5 2) / (2 * uS5 0))) = 1 := by
    have : air.g * (air.g - 1) / uS5 0 * (uS5 3 - (uS5 1 * uS5 1 + uS5 2 * uS5 2) / (2 * uS5 0)) = 1 := by
      simp [air, uS5]; norm_num
    rw [this, Real.sqrt_one]
  simp only [llfDe, eigRow, hs, vn_uS5, c_uS5, varsP_uS5] at h0
  simp [uS5, uS4, sgn, air, Gas.dVarsVn, Gas.dVelRow, Gas.dSoundSpeed, Gas.dPressure, dot, mom] at h0
  norm_num [abs_of_pos] at h0

/-- Concrete case for `C18_llf2_partial`. -/
example : ∃ ul ur, Adm air ul ∧ Adm air ur ∧ ul ≠ ur ∧ Gas.varsVn ul ![1, 0] ≠ 0 ∧ ul 0 = 1 ∧
    |Gas.varsVn ur ![1, 0]| + cSide air ur < |Gas.varsVn ul ![1, 0]| + cSide air ul := by
  have hp : air.varsP (![1, 9, 0, 81/2 + 5/2 * (5/7)] : St) = 5/7 := by
    simp [Gas.varsP, Gas.vel, dot, air]; norm_num
  refine ⟨![1, 9, 0, 81/2 + 5/2 * (5/7)], uS4, ⟨by norm_num [air], by norm_num, ?_⟩, adm_uS4, ?_, ?_, by norm_num, ?_⟩
  · rw [← varsP_eq (by norm_num), hp]; norm_num
  · intro h; have := congrFun h 0; norm_num [uS4] at this
  · norm_num [Gas.varsVn, Gas.vel, dot]
  · rw [vn_uS4, c_uS4, cSide, hp]
    norm_num [Gas.varsVn, Gas.vel, dot, Gas.soundSpeed, air, abs_of_pos]

end Flux
end FVENS
