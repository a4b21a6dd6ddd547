import Verif.Flux.Chart

/-!
# Flux Jacobians in another chart (C104)
-/

namespace FVENS

open Flux FV FV.Disc

/-- Specification: `A'` is the block `A` in the chart `χ`, up to the factor `κ` of fluxes: applied to an image it gives `κ` times the image of the result. -/
def Chart.BlkIm (χ : Chart) (κ : ℝ) (A A' : Fin 4 → St) : Prop := ∀ x : St, (fun i => ∑ k, A' i k * χ.st x k) = fun i => κ * χ.st (fun j => ∑ k, A j k * x k) i

/-- Both blocks of a face. -/
structure Chart.JacIm (χ : Chart) (κ : ℝ) (J J' : FJ) : Prop where
  l : χ.BlkIm κ J.dfdl J'.dfdl
  r : χ.BlkIm κ J.dfdr J'.dfdr

namespace Chart
variable (χ : Chart)

/-- The map of states as a continuous linear map. -/
noncomputable def lin : St →L[ℝ] St := LinearMap.toContinuousLinearMap ⟨⟨χ.st, χ.st_add⟩, χ.st_smul⟩

theorem lin_apply (u : St) : χ.lin u = χ.st u := rfl

theorem row_sum (g x : St) : row g x = ∑ k, g k * x k := by rw [row_apply, Fin.sum_univ_four]

/-- Derivatives of a function that commutes with the chart. -/
theorem blkIm_of_grad {κ : ℝ} {f f' : St → St} {A A' : Fin 4 → St} {u : St} (hf : ∀ v i, f' (χ.st v) i = κ * χ.st (f v) i)
    (h : ∀ i, HasGrad (fun v => f v i) (A i) u) (h' : ∀ i, HasGrad (fun v => f' v i) (A' i) (χ.st u)) : χ.BlkIm κ A A' := by
  intro x
  funext i
  have h1 : HasFDerivAt (fun v => f' (χ.st v) i) ((row (A' i)).comp χ.lin) u := HasFDerivAt.comp u (f := χ.lin) (h' i) χ.lin.hasFDerivAt
  have h2 : HasFDerivAt f (ContinuousLinearMap.pi fun c => row (A c)) u := hasFDerivAt_pi.2 fun c => h c
  have h3 : HasFDerivAt (fun v => κ * χ.st (f v) i) (κ • ((ContinuousLinearMap.proj i).comp (χ.lin.comp (ContinuousLinearMap.pi fun c => row (A c))))) u := by
    have h4 := HasFDerivAt.comp u (g := χ.lin) χ.lin.hasFDerivAt h2
    exact ((hasFDerivAt_pi'.1 h4) i).const_mul κ
  have h5 := h1.unique (h3.congr_of_eventuallyEq (Filter.Eventually.of_forall fun v => hf v i))
  have h6 := congrArg (fun L => L x) h5
  simp only [ContinuousLinearMap.comp_apply, lin_apply, row_sum, _root_.smul_apply, smul_eq_mul, ContinuousLinearMap.proj_apply] at h6
  rw [h6]
  simp only [ContinuousLinearMap.coe_pi', row_sum]

/-- A flux function that commutes with the chart has Jacobian blocks that do. -/
theorem jacIm_of_flux {κ : ℝ} {F F' : St → St → St} {J J' : FJ} {ul ur : St} (hF : ∀ x y i, F' (χ.st x) (χ.st y) i = κ * χ.st (F x y) i)
    (h : IsFluxJac F J ul ur) (h' : IsFluxJac F' J' (χ.st ul) (χ.st ur)) : χ.JacIm κ J J' := by
  constructor
  · have e := χ.blkIm_of_grad (f := fun v => F v ur) (f' := fun v => F' v (χ.st ur)) (fun v i => hF v ur i) (fun i => (h i).1) (fun i => (h' i).1)
    intro x
    have e := e x
    funext i
    have e := congrFun e i
    simp only [neg_mul, Finset.sum_neg_distrib] at e
    have hn : χ.st (fun j => -∑ k, J.dfdl j k * x k) i = -χ.st (fun j => ∑ k, J.dfdl j k * x k) i := by
      have h1 : (fun j => -∑ k, J.dfdl j k * x k) = (-1 : ℝ) • fun j => ∑ k, J.dfdl j k * x k := by funext j; simp
      rw [h1, χ.st_smul]; simp
    rw [hn] at e
    linarith
  · exact χ.blkIm_of_grad (f := fun v => F ul v) (f' := fun v => F' (χ.st ul) v) (fun v i => hF ul v i) (fun i => (h i).2) (fun i => (h' i).2)

theorem abs_st (x : ℝ) : |χ.b * x| = χ.b * |x| := by rw [abs_mul, abs_of_pos χ.hb]
theorem lt_st (x y : ℝ) : χ.b * x < χ.b * y ↔ x < y := mul_lt_mul_iff_right₀ χ.hb
theorem ite_st (x y z w : ℝ) : (if χ.b * x < χ.b * y then χ.b * z else χ.b * w) = χ.b * (if x < y then z else w) := by
  simp only [χ.lt_st]; split_ifs <;> rfl
theorem div_st (x y : ℝ) : χ.b * x / (χ.b * y) = x / y := mul_div_mul_left _ _ χ.hb.ne'
theorem pos_st (x : ℝ) : 0 < χ.b * x ↔ 0 < x := mul_pos_iff_of_pos_left χ.hb
theorem nonneg_st (x : ℝ) : 0 ≤ χ.b * x ↔ 0 ≤ x := mul_nonneg_iff_of_pos_left χ.hb
theorem nonpos_st (x : ℝ) : χ.b * x ≤ 0 ↔ x ≤ 0 := by rw [← not_lt, ← not_lt, χ.pos_st]

theorem contact_st (ri rj vi vj pi pj sl sr : ℝ) : contact (χ.a * ri) (χ.a * rj) (χ.b * vi) (χ.b * vj) (χ.a * χ.b ^ 2 * pi) (χ.a * χ.b ^ 2 * pj) (χ.b * sl) (χ.b * sr) =
    χ.b * contact ri rj vi vj pi pj sl sr := by
  have := χ.ha; have := χ.hb
  unfold contact
  rw [show χ.a * rj * (χ.b * vj) * (χ.b * sr - χ.b * vj) - χ.a * ri * (χ.b * vi) * (χ.b * sl - χ.b * vi) + χ.a * χ.b ^ 2 * pi - χ.a * χ.b ^ 2 * pj =
      (χ.a * χ.b) * (χ.b * (rj * vj * (sr - vj) - ri * vi * (sl - vi) + pi - pj)) by ring,
    show χ.a * rj * (χ.b * sr - χ.b * vj) - χ.a * ri * (χ.b * sl - χ.b * vi) = (χ.a * χ.b) * (rj * (sr - vj) - ri * (sl - vi)) by ring,
    mul_div_mul_left _ _ (by positivity), mul_div_assoc]

theorem star_st (u : St) (n : V2) (vn p ss sm : ℝ) : Flux.star (χ.st u) (χ.dir n) (χ.b * vn) (χ.a * χ.b ^ 2 * p) (χ.b * ss) (χ.b * sm) = χ.st (Flux.star u n vn p ss sm) := by
  have hd : ∀ x : ℝ, x / (χ.b * ss - χ.b * sm) = x / χ.b / (ss - sm) := fun x => by rw [← mul_sub, ← div_div]
  have hb := χ.hb.ne'
  unfold Flux.star
  simp only [hd]
  funext v
  fin_cases v <;> simp [st, dir] <;> field_simp <;> ring

section schemes
variable {G G' : Gas} (hg : G'.g = G.g) {ul ur : St}
include hg

/-! ### Lax-Friedrichs, HLL -/

/-- C104, Lax-Friedrichs blocks. -/
theorem C104_llf (hl : Adm G ul) (hr : Adm G ur) (n : V2) : χ.JacIm χ.b (llfJac G ul ur n) (llfJac G' (χ.st ul) (χ.st ur) (χ.dir n)) := by
  have h' := (C18_llf_frozen (G := G') (χ.adm_st hg hl).rho' (χ.adm_st hg hr).rho' (χ.dir n)).2
  have e : llfEig (Gas.varsVn (χ.st ul) (χ.dir n)) (cSide G' (χ.st ul)) (Gas.varsVn (χ.st ur) (χ.dir n)) (cSide G' (χ.st ur)) =
      χ.b * llfEig (Gas.varsVn ul n) (cSide G ul) (Gas.varsVn ur n) (cSide G ur) := by
    unfold llfEig
    simp only [χ.vn_st, χ.c_st hg, χ.abs_st, ← mul_add, gt_iff_lt, χ.ite_st]
  refine χ.jacIm_of_flux (fun x y i => ?_) (C18_llf_frozen hl.rho' hr.rho' n).2 h'
  rw [e]
  simp only [llfWith, χ.euler_st hg]
  fin_cases i <;> simp [st, llfWith] <;> ring

theorem sl_st (ul ur : St) (n : V2) : slOf G' (χ.st ul) (χ.st ur) (χ.dir n) = χ.b * slOf G ul ur n := by
  unfold slOf waveL
  simp only [χ.vn_st, χ.c_st hg, χ.roeOf_st hg, avg, ← mul_sub, gt_iff_lt, χ.ite_st]

theorem sr_st (ul ur : St) (n : V2) : srOf G' (χ.st ul) (χ.st ur) (χ.dir n) = χ.b * srOf G ul ur n := by
  unfold srOf waveR
  simp only [χ.vn_st, χ.c_st hg, χ.roeOf_st hg, avg, ← mul_add, χ.ite_st]

/-- C104, HLL blocks. -/
theorem C104_hll (hl : Adm G ul) (hr : Adm G ur) (n : V2) : χ.JacIm χ.b (hllJac G ul ur n) (hllJac G' (χ.st ul) (χ.st ur) (χ.dir n)) := by
  have h' := (C18_hll_frozen (G := G') (χ.adm_st hg hl).rho' (χ.adm_st hg hr).rho' (χ.dir n)).2
  have hm : ∀ x : ℝ, (if χ.b * x > 0 then 0 else χ.b * x) = χ.b * (if x > 0 then 0 else x) := fun x => by
    simp only [gt_iff_lt, χ.pos_st]; split_ifs <;> simp
  have h1 : ∀ x y : ℝ, hllT1 (χ.b * x) (χ.b * y) = hllT1 x y := fun x y => by
    unfold hllT1
    rw [hm, hm, ← mul_sub, ← mul_sub, χ.div_st]
  have h3 : ∀ x y : ℝ, hllT3 (χ.b * x) (χ.b * y) = χ.b * hllT3 x y := fun x y => by
    unfold hllT3
    rw [χ.abs_st, χ.abs_st, ← mul_sub, show 1 / 2 * (χ.b * y * (χ.b * |x|) - χ.b * x * (χ.b * |y|)) = χ.b * (χ.b * (1 / 2 * (y * |x| - x * |y|))) by ring, χ.div_st, mul_div_assoc]
  refine χ.jacIm_of_flux (fun x y i => ?_) (C18_hll_frozen hl.rho' hr.rho' n).2 h'
  rw [χ.sl_st hg, χ.sr_st hg, h1, h3]
  simp only [hllWith, χ.euler_st hg]
  fin_cases i <;> simp [st, hllWith] <;> ring

/-! ### AUSM -/

theorem machHalf_st (ul ur : St) (n : V2) : machHalf G' (χ.st ul) (χ.st ur) (χ.dir n) = machHalf G ul ur n := by
  unfold machHalf; rw [χ.vn_st, χ.vn_st, χ.c_st hg, χ.c_st hg, χ.div_st, χ.div_st]

theorem pHalf_st (ul ur : St) (n : V2) : pHalf G' (χ.st ul) (χ.st ur) (χ.dir n) = χ.a * χ.b ^ 2 * pHalf G ul ur n := by
  have hl : ∀ M p : ℝ, ausmPL M (χ.a * χ.b ^ 2 * p) = χ.a * χ.b ^ 2 * ausmPL M p := fun M p => by unfold ausmPL; split_ifs <;> ring
  have hr : ∀ M p : ℝ, ausmPR M (χ.a * χ.b ^ 2 * p) = χ.a * χ.b ^ 2 * ausmPR M p := fun M p => by unfold ausmPR; split_ifs <;> ring
  unfold pHalf; rw [χ.vn_st, χ.vn_st, χ.c_st hg, χ.c_st hg, χ.div_st, χ.div_st, χ.p_st hg, χ.p_st hg, hl, hr]; ring

/-- C104, AUSM blocks. -/
theorem C104_ausm (hl : Adm G ul) (hr : Adm G ur) (n : V2) : χ.JacIm χ.b (ausmJac G ul ur n) (ausmJac G' (χ.st ul) (χ.st ur) (χ.dir n)) := by
  have h' := ausmS_jac (χ.adm_st hg hl) (χ.adm_st hg hr) (χ.dir n)
  rw [χ.machHalf_st hg] at h'
  refine χ.jacIm_of_flux (fun x y i => ?_) (ausmS_jac hl hr n) h'
  unfold ausmS
  rw [χ.machHalf_st hg, χ.pHalf_st hg, χ.p_st hg, χ.p_st hg, χ.c_st hg, χ.c_st hg]
  fin_cases i <;> simp [ausmCoreS, st, dir] <;> ring

/-! ### HLLC -/

theorem slSel_st (t : Bool) (x y : St) (n : V2) : slSel t G' (χ.dir n) (χ.st x) (χ.st y) = χ.b * slSel t G n x y := by
  unfold slSel
  simp only [χ.vn_st, χ.c_st hg, χ.roeOf_st hg, avg, ← mul_sub]
  split_ifs <;> rfl

theorem srSel_st (t : Bool) (x y : St) (n : V2) : srSel t G' (χ.dir n) (χ.st x) (χ.st y) = χ.b * srSel t G n x y := by
  unfold srSel
  simp only [χ.vn_st, χ.c_st hg, χ.roeOf_st hg, avg, ← mul_add]
  split_ifs <;> rfl

theorem smSel_st (t q : Bool) (x y : St) (n : V2) : smSel t q G' (χ.dir n) (χ.st x) (χ.st y) = χ.b * smSel t q G n x y := by
  unfold smSel
  simp only [χ.slSel_st hg, χ.srSel_st hg, χ.vn_st, χ.p_st hg, st_0, contact_st]

theorem sm_st (x y : St) (n : V2) : smOf G' (χ.st x) (χ.st y) (χ.dir n) = χ.b * smOf G x y n := by
  unfold smOf
  simp only [χ.sl_st hg, χ.sr_st hg, χ.vn_st, χ.p_st hg, st_0, contact_st]

/-- C104, HLLC blocks; `4 ≤ 3γ` orders the waves (C21). -/
theorem C104_hllc (hl : Adm G ul) (hr : Adm G ur) (h43 : 4 ≤ 3 * G.g) (n : V2) : χ.JacIm χ.b (hllcJac G ul ur n) (hllcJac G' (χ.st ul) (χ.st ur) (χ.dir n)) := by
  have h' := hllcSel_jac (χ.adm_st hg hl) (χ.adm_st hg hr) (χ.dir n) (C21_wave_order (by rw [hg]; exact h43) (χ.adm_st hg hl) (χ.adm_st hg hr) (χ.dir n)).2.ne
  have e1 : selL G' (χ.dir n) (χ.st ul) (χ.st ur) = selL G n ul ur := by
    unfold selL
    simp only [χ.vn_st, χ.c_st hg, χ.roeOf_st hg, avg, ← mul_sub, gt_iff_lt, χ.lt_st]
  have e2 : selR G' (χ.dir n) (χ.st ul) (χ.st ur) = selR G n ul ur := by
    unfold selR
    simp only [χ.vn_st, χ.c_st hg, χ.roeOf_st hg, avg, ← mul_add, χ.lt_st]
  have e3 : selQ G' (χ.dir n) (χ.st ul) (χ.st ur) = selQ G n ul ur := by
    unfold selQ
    simp only [χ.sl_st hg, χ.sr_st hg, χ.sm_st hg, gt_iff_lt, ge_iff_le, χ.pos_st, χ.nonpos_st, χ.nonneg_st]
  rw [e1, e2, e3] at h'
  refine χ.jacIm_of_flux (fun x y i => ?_) (hllcSel_jac hl hr n (C21_wave_order h43 hl hr n).2.ne) h'
  have hs : ∀ (s : ℝ) (f w u : St) (i : Fin 4), χ.b * χ.st f i + χ.b * s * (χ.st w i - χ.st u i) = χ.b * χ.st (fun i => f i + s * (w i - u i)) i := fun s f w u i => by
    fin_cases i <;> simp [st] <;> ring
  unfold hllcSel
  simp only [χ.slSel_st hg, χ.srSel_st hg, χ.smSel_st hg, χ.euler_st hg, χ.vn_st, χ.p_st hg, χ.star_st, hs]
  generalize selQ G n ul ur = q
  fin_cases q <;> rfl

end schemes

/-! ### Roe -/

/-- Coefficient of the derivative of the normal velocity in the coded eigenvalue derivatives, src/spatial/anumericalflux.cpp:788-818. -/
noncomputable def eigV (a : Avg) (i : Fin 4) : ℝ :=
  let w := (![sgn (a.vn - a.c), sgn a.vn, sgn a.vn, sgn (a.vn + a.c)] : St) i
  if roeL0 a i < fixeps * a.c then roeL a i * w / (fixeps * a.c) else w
/-- Coefficient of the derivative of the speed of sound. -/
noncomputable def eigC (a : Avg) (i : Fin 4) : ℝ :=
  let w := (![-sgn (a.vn - a.c), 0, 0, sgn (a.vn + a.c)] : St) i
  if roeL0 a i < fixeps * a.c then roeL a i * w / (fixeps * a.c) + fixeps - (roeL a i / (fixeps * a.c) * (roeL a i / (fixeps * a.c)) + 1) * fixeps / 2 else w

/-- Eigenvalues linearised about the averages `a` with the coded derivatives. -/
noncomputable def eigLin (a A : Avg) : St := fun i => roeL a i + eigV a i * (A.vn - a.vn) + eigC a i * (A.c - a.c)

theorem eigLin_self (a : Avg) : eigLin a a = roeL a := by funext i; simp [eigLin]

theorem hasGrad_eigLin {A : St → Avg} {d : DAvg} {u : St} (hA : HasAvgGrad A d u) (hc : (A u).c ≠ 0) (i : Fin 4) :
    HasGrad (fun v => eigLin (A u) (A v) i) (roeDL (A u) d i) u := by
  have hf : fixeps ≠ 0 := by norm_num [fixeps]
  have h1 := ((HasGrad.const (u := u) (roeL (A u) i)).add ((hA.vn.sub (HasGrad.const (A u).vn)).cmul (eigV (A u) i))).add
    ((hA.c.sub (HasGrad.const (A u).c)).cmul (eigC (A u) i))
  refine h1.congr ?_
  funext k
  simp only [Pi.zero_apply, zero_add, sub_zero, roeDL, eigV, eigC]
  split_ifs with h
  · have hd : fixeps * (A u).c ≠ 0 := mul_ne_zero hf hc
    generalize roeL (A u) i = l
    fin_cases i <;> simp [roeDL0] <;> field_simp <;> ring
  · fin_cases i <;> simp [roeDL0] <;> ring

/-- The Roe flux with another formula for the eigenvalues. -/
noncomputable def roeWith (ℓ : Avg → St) (G : Gas) (n : V2) (ul ur : St) : St :=
  fun i => 1 / 2 * (G.eulerFlux ul n i + G.eulerFlux ur n i - roeADU (roeOf G ul ur n)
    (roeLA (roeOf G ul ur n) (ℓ (roeOf G ul ur n)) (G.varsP ur - G.varsP ul) (Gas.varsVn ur n - Gas.varsVn ul n) (ur 0 - ul 0)) n
    ![Gas.vel ur 0 - Gas.vel ul 0, Gas.vel ur 1 - Gas.vel ul 1] (Gas.varsVn ur n - Gas.varsVn ul n) i)

section
variable {G : Gas} {ul ur : St}

theorem roeWith_left (hl : Adm G ul) (hr : Adm G ur) (n : V2) {ℓ : Avg → St} {dl : Fin 4 → St} (hℓ : ℓ (roeOf G ul ur n) = roeL (roeOf G ul ur n))
    (hL : ∀ i, HasGrad (fun v => ℓ (roeOf G v ur n) i) (dl i) ul) (i : Fin 4) :
    HasGrad (fun v => roeWith ℓ G n v ur i) (roeRowL G ul ur n dl i) ul := by
  have hc := roe_c_pos (n := n) hl hr
  have hA := C18_roe_averages_left hl hr n
  have hdep : HasGrad (fun v => G.varsP ur - G.varsP v) (fun k => - G.dPressure ul k) ul :=
    ((HasGrad.const (G.varsP ur)).sub (hasGrad_varsP hl.rho')).congr (by funext k; simp)
  have hdevn : HasGrad (fun v => Gas.varsVn ur n - Gas.varsVn v n) (fun k => - Gas.dVarsVn ul n k) ul :=
    ((HasGrad.const (Gas.varsVn ur n)).sub (hasGrad_varsVn hl.rho' n)).congr (by funext k; simp)
  have hder : HasGrad (fun v => ur 0 - v 0) ![-1, 0, 0, 0] ul :=
    ((HasGrad.const (ur 0)).sub (HasGrad.coord 0)).congr (by funext k; fin_cases k <;> simp)
  have hx : HasGrad (fun v => Gas.vel ur 0 - Gas.vel v 0) (fun k => - Gas.dVelRow ul 0 k) ul :=
    ((HasGrad.const (Gas.vel ur 0)).sub (hasGrad_vel hl.rho' 0)).congr (by funext k; simp)
  have hy : HasGrad (fun v => Gas.vel ur 1 - Gas.vel v 1) (fun k => - Gas.dVelRow ul 1 k) ul :=
    ((HasGrad.const (Gas.vel ur 1)).sub (hasGrad_vel hl.rho' 1)).congr (by funext k; simp)
  have hla := hasGrad_roeLA hA hL hdep hdevn hder hc.ne'
  have h1 := hasGrad_roeADU n hA hla hdevn hx hy i
  have h2 := (((C03_eulerFlux G ul n hl.rho' i).add (HasGrad.const (G.eulerFlux ur n i))).sub h1).cmul (1/2)
  refine h2.congr ?_
  funext k
  simp only [roeRowL, Pi.zero_apply, hℓ]; ring

theorem roeWith_right (hl : Adm G ul) (hr : Adm G ur) (n : V2) {ℓ : Avg → St} {dl : Fin 4 → St} (hℓ : ℓ (roeOf G ul ur n) = roeL (roeOf G ul ur n))
    (hL : ∀ i, HasGrad (fun v => ℓ (roeOf G ul v n) i) (dl i) ur) (i : Fin 4) :
    HasGrad (fun v => roeWith ℓ G n ul v i) (roeRowR G ul ur n dl i) ur := by
  have hc := roe_c_pos (n := n) hl hr
  have hA := C18_roe_averages_right hl hr n
  have hdep : HasGrad (fun v => G.varsP v - G.varsP ul) (G.dPressure ur) ur :=
    ((hasGrad_varsP hr.rho').sub (HasGrad.const (G.varsP ul))).congr (by funext k; simp)
  have hdevn : HasGrad (fun v => Gas.varsVn v n - Gas.varsVn ul n) (Gas.dVarsVn ur n) ur :=
    ((hasGrad_varsVn hr.rho' n).sub (HasGrad.const (Gas.varsVn ul n))).congr (by funext k; simp)
  have hder : HasGrad (fun v => v 0 - ul 0) ![1, 0, 0, 0] ur :=
    ((HasGrad.coord 0).sub (HasGrad.const (ul 0))).congr (by funext k; fin_cases k <;> simp)
  have hx : HasGrad (fun v => Gas.vel v 0 - Gas.vel ul 0) (Gas.dVelRow ur 0) ur :=
    ((hasGrad_vel hr.rho' 0).sub (HasGrad.const (Gas.vel ul 0))).congr (by funext k; simp)
  have hy : HasGrad (fun v => Gas.vel v 1 - Gas.vel ul 1) (Gas.dVelRow ur 1) ur :=
    ((hasGrad_vel hr.rho' 1).sub (HasGrad.const (Gas.vel ul 1))).congr (by funext k; simp)
  have hla := hasGrad_roeLA hA hL hdep hdevn hder hc.ne'
  have h1 := hasGrad_roeADU n hA hla hdevn hx hy i
  have h2 := (((HasGrad.const (G.eulerFlux ul n i)).add (C03_eulerFlux G ur n hr.rho' i)).sub h1).cmul (1/2)
  refine h2.congr ?_
  funext k
  simp only [roeRowR, Pi.zero_apply, hℓ]; ring

/-- The Roe blocks of the code, right or wrong, are the derivatives of the flux with linearised eigenvalues. -/
theorem roeWith_jac (hl : Adm G ul) (hr : Adm G ur) (n : V2) : IsFluxJac (roeWith (eigLin (roeOf G ul ur n)) G n) (roeJac G ul ur n) ul ur := by
  have hc := (roe_c_pos (n := n) hl hr).ne'
  intro i
  refine ⟨(roeWith_left hl hr n (eigLin_self _) (fun i => hasGrad_eigLin (A := fun v => roeOf G v ur n) (C18_roe_averages_left hl hr n) hc i) i).congr ?_,
    (roeWith_right hl hr n (eigLin_self _) (fun i => hasGrad_eigLin (A := fun v => roeOf G ul v n) (C18_roe_averages_right hl hr n) hc i) i).congr ?_⟩
  · funext k; rw [roeJac_rowL]
  · funext k; rw [roeJac_rowR]

end

theorem sgn_st (x : ℝ) : sgn (χ.b * x) = sgn x := by
  unfold sgn; simp only [ge_iff_le, χ.nonneg_st]

theorem roeL0_st (a : Avg) (k : Fin 4) : roeL0 (χ.avg a) k = χ.b * roeL0 a k := by
  fin_cases k <;> simp [roeL0, avg, ← mul_sub, ← mul_add, χ.abs_st]

theorem roeL_st (a : Avg) (k : Fin 4) : roeL (χ.avg a) k = χ.b * roeL a k := by
  have hh : ∀ d l : ℝ, harten (χ.b * d) (χ.b * l) = χ.b * harten d l := fun d l => by
    unfold harten
    rw [show (χ.b * l * (χ.b * l) + χ.b * d * (χ.b * d)) / (2 * (χ.b * d)) = χ.b * ((l * l + d * d) / (2 * d)) by
      rw [show χ.b * l * (χ.b * l) + χ.b * d * (χ.b * d) = χ.b * (χ.b * (l * l + d * d)) by ring, show 2 * (χ.b * d) = χ.b * (2 * d) by ring, χ.div_st, mul_div_assoc]]
    exact χ.ite_st _ _ _ _
  unfold roeL
  rw [χ.roeL0_st, show fixeps * (χ.avg a).c = χ.b * (fixeps * a.c) by simp only [avg]; ring, hh]

theorem eigLin_st (a A : Avg) (i : Fin 4) : eigLin (χ.avg a) (χ.avg A) i = χ.b * eigLin a A i := by
  have hd : fixeps * (χ.avg a).c = χ.b * (fixeps * a.c) := by simp only [avg]; ring
  have hv : eigV (χ.avg a) i = eigV a i := by
    have hw : (![sgn ((χ.avg a).vn - (χ.avg a).c), sgn (χ.avg a).vn, sgn (χ.avg a).vn, sgn ((χ.avg a).vn + (χ.avg a).c)] : St) =
        ![sgn (a.vn - a.c), sgn a.vn, sgn a.vn, sgn (a.vn + a.c)] := by
      simp only [avg, ← mul_sub, ← mul_add, χ.sgn_st]
    unfold eigV
    simp only [hw, χ.roeL0_st, χ.roeL_st, hd, χ.lt_st, mul_assoc, χ.div_st]
  have hc : eigC (χ.avg a) i = eigC a i := by
    have hw : (![-sgn ((χ.avg a).vn - (χ.avg a).c), 0, 0, sgn ((χ.avg a).vn + (χ.avg a).c)] : St) = ![-sgn (a.vn - a.c), 0, 0, sgn (a.vn + a.c)] := by
      simp only [avg, ← mul_sub, ← mul_add, χ.sgn_st]
    unfold eigC
    simp only [hw, χ.roeL0_st, χ.roeL_st, hd, χ.lt_st, mul_assoc, χ.div_st]
  unfold eigLin
  rw [hv, hc, χ.roeL_st]
  simp only [avg]; ring

theorem roeWith_st {G G' : Gas} (hg : G'.g = G.g) {ℓ ℓ' : Avg → St} (hℓ : ∀ A i, ℓ' (χ.avg A) i = χ.b * ℓ A i) (n : V2) (x y : St) (i : Fin 4) :
    roeWith ℓ' G' (χ.dir n) (χ.st x) (χ.st y) i = χ.b * χ.st (roeWith ℓ G n x y) i := by
  have hb := χ.hb.ne'
  have hc : ∀ l dep rho c devn : ℝ, χ.b * l * (χ.a * χ.b ^ 2 * dep - χ.a * rho * (χ.b * c) * (χ.b * devn)) / (2 * (χ.b * c) * (χ.b * c)) =
      χ.a * χ.b * (l * (dep - rho * c * devn) / (2 * c * c)) := fun l dep rho c devn => by
    rw [show χ.b * l * (χ.a * χ.b ^ 2 * dep - χ.a * rho * (χ.b * c) * (χ.b * devn)) = χ.b ^ 2 * (χ.a * χ.b * (l * (dep - rho * c * devn))) by ring,
      show 2 * (χ.b * c) * (χ.b * c) = χ.b ^ 2 * (2 * c * c) by ring, mul_div_mul_left _ _ (pow_ne_zero 2 hb), mul_div_assoc]
  have hc' : ∀ l dep rho c devn : ℝ, χ.b * l * (χ.a * χ.b ^ 2 * dep + χ.a * rho * (χ.b * c) * (χ.b * devn)) / (2 * (χ.b * c) * (χ.b * c)) =
      χ.a * χ.b * (l * (dep + rho * c * devn) / (2 * c * c)) := fun l dep rho c devn => by
    rw [show χ.b * l * (χ.a * χ.b ^ 2 * dep + χ.a * rho * (χ.b * c) * (χ.b * devn)) = χ.b ^ 2 * (χ.a * χ.b * (l * (dep + rho * c * devn))) by ring,
      show 2 * (χ.b * c) * (χ.b * c) = χ.b ^ 2 * (2 * c * c) by ring, mul_div_mul_left _ _ (pow_ne_zero 2 hb), mul_div_assoc]
  have hd : ∀ dep c : ℝ, χ.a * χ.b ^ 2 * dep / (χ.b * c * (χ.b * c)) = χ.a * (dep / (c * c)) := fun dep c => by
    rw [show χ.a * χ.b ^ 2 * dep = χ.b ^ 2 * (χ.a * dep) by ring, show χ.b * c * (χ.b * c) = χ.b ^ 2 * (c * c) by ring, mul_div_mul_left _ _ (pow_ne_zero 2 hb), mul_div_assoc]
  have hla : ∀ (A : Avg) (dep devn dr : ℝ) (k : Fin 4), roeLA (χ.avg A) (ℓ' (χ.avg A)) (χ.a * χ.b ^ 2 * dep) (χ.b * devn) (χ.a * dr) k =
      χ.a * χ.b * roeLA A (ℓ A) dep devn dr k := fun A dep devn dr k => by
    unfold roeLA
    simp only [hℓ]
    fin_cases k <;> simp only [avg, hc, hc', hd, Fin.zero_eta, Fin.mk_one, Fin.reduceFinMk, Matrix.cons_val_zero, Matrix.cons_val_one, Matrix.cons_val] <;> ring
  have hadd : ∀ (A : Avg) (la : St) (dv : V2) (devn : ℝ) (i : Fin 4), dot A.v A.v = A.vm2 → roeADU (χ.avg A) (fun k => χ.a * χ.b * la k) (χ.dir n) (fun d => χ.b * χ.dir dv d) (χ.b * devn) i =
      χ.b * χ.st (roeADU A la n dv devn) i := fun A la dv devn i hA => by
    have h2 : (χ.avg A).v 0 * (χ.b * χ.dir dv 0) + (χ.avg A).v 1 * (χ.b * χ.dir dv 1) = χ.b ^ 2 * (A.v 0 * dv 0 + A.v 1 * dv 1) := by
      have := χ.dot_dir A.v dv
      unfold dot at this
      simp only [avg]
      linear_combination χ.b ^ 2 * this
    unfold roeADU
    simp only [h2]
    fin_cases i <;> simp [avg, st, dir] <;> ring
  have hdv : (![Gas.vel (χ.st y) 0 - Gas.vel (χ.st x) 0, Gas.vel (χ.st y) 1 - Gas.vel (χ.st x) 1] : V2) =
      fun d => χ.b * χ.dir ![Gas.vel y 0 - Gas.vel x 0, Gas.vel y 1 - Gas.vel x 1] d := by
    rw [χ.vel_st, χ.vel_st]
    funext d; fin_cases d <;> simp [dir] <;> ring
  unfold roeWith
  simp only [χ.vn_st, χ.p_st hg, χ.roeOf_st hg, hdv, ← mul_sub, st_0, χ.euler_st hg]
  rw [show (roeLA (χ.avg (roeOf G x y n)) (ℓ' (χ.avg (roeOf G x y n))) (χ.a * χ.b ^ 2 * (G.varsP y - G.varsP x)) (χ.b * (Gas.varsVn y n - Gas.varsVn x n)) (χ.a * (y 0 - x 0))) =
    fun k => χ.a * χ.b * roeLA (roeOf G x y n) (ℓ (roeOf G x y n)) (G.varsP y - G.varsP x) (Gas.varsVn y n - Gas.varsVn x n) (y 0 - x 0) k from funext fun k => hla _ _ _ _ k,
    hadd _ _ _ _ _ rfl]
  generalize roeADU _ _ _ _ _ = w
  fin_cases i <;> simp [st] <;> ring

/-- C104, Roe blocks, with or without entropy fix. -/
theorem C104_roe {G G' : Gas} (hg : G'.g = G.g) {ul ur : St} (hl : Adm G ul) (hr : Adm G ur) (n : V2) :
    χ.JacIm χ.b (roeJac G ul ur n) (roeJac G' (χ.st ul) (χ.st ur) (χ.dir n)) := by
  have h' := roeWith_jac (χ.adm_st hg hl) (χ.adm_st hg hr) (χ.dir n)
  rw [χ.roeOf_st hg] at h'
  exact χ.jacIm_of_flux (fun x y i => χ.roeWith_st hg (fun A i => χ.eigLin_st _ A i) n x y i) (roeWith_jac hl hr n) h'
end Chart
end FVENS
