import Verif.Flux.Jac

/-!
# Property C18: Roe averages, Roe flux, HLLC flux
-/

namespace FVENS
namespace Flux
variable {G : Gas} {u ul ur : St} {n : V2}

/-- `d` holds the derivatives of all the averages `A`. -/
structure HasAvgGrad (A : St → Avg) (d : DAvg) (u : St) : Prop where
  R : HasGrad (fun v => (A v).R) d.dR u
  rho : HasGrad (fun v => (A v).rho) d.drho u
  vx : HasGrad (fun v => (A v).v 0) d.dvx u
  vy : HasGrad (fun v => (A v).v 1) d.dvy u
  vm2 : HasGrad (fun v => (A v).vm2) d.dvm2 u
  vn : HasGrad (fun v => (A v).vn) d.dvn u
  H : HasGrad (fun v => (A v).H) d.dH u
  c : HasGrad (fun v => (A v).c) d.dc u

theorem vel_zero (w : St) : Gas.vel w 0 = w 1 / w 0 := rfl
theorem vel_one (w : St) : Gas.vel w 1 = w 2 / w 0 := rfl

/-- C18: the left derivatives of the Roe averages are exact. -/
theorem C18_roe_averages_left (hl : Adm G ul) (hr : Adm G ur) (n : V2) :
    HasAvgGrad (fun v => roeOf G v ur n)
      (dRoeI G.g ul ur n (Gas.vel ul) (G.varsH ul) (Gas.vel ur) (G.varsH ur) (G.dVarsH ul)) ul := by
  have hl0 := hl.rho'
  have hr0 := hr.rho'
  have hq : ur 0 / ul 0 ≠ 0 := (div_pos hr.rho hl.rho).ne'
  have hRp : 0 < (roeOf G ul ur n).R := roe_R_pos hl.rho hr.rho
  have hR0 := hRp.ne'
  have hR1 : (roeOf G ul ur n).R + 1 ≠ 0 := by positivity
  have hc0 := (roe_c_pos (n := n) hl hr).ne'
  have hca := (roe_arg_pos (n := n) hl hr).ne'
  have e : roeAvg G.g ul ur n (Gas.vel ul) (G.varsH ul) (Gas.vel ur) (G.varsH ur) = roeOf G ul ur n := rfl
  have hR : HasGrad (fun v => (roeOf G v ur n).R) (dRoeI G.g ul ur n (Gas.vel ul) (G.varsH ul) (Gas.vel ur) (G.varsH ur) (G.dVarsH ul)).dR ul := by
    refine (((HasGrad.const (ur 0)).div (HasGrad.coord 0) hl0).sqrt hq).congr ?_
    have hRe : Real.sqrt (ur 0 / ul 0) = (roeOf G ul ur n).R := rfl
    rw [hRe]
    funext k; fin_cases k <;> simp [dRoeI, e] <;> field_simp
  have hx : HasGrad (fun v => (roeOf G v ur n).v 0) (dRoeI G.g ul ur n (Gas.vel ul) (G.varsH ul) (Gas.vel ur) (G.varsH ur) (G.dVarsH ul)).dvx ul := by
    refine (((hR.mul (HasGrad.const (Gas.vel ur 0))).add (hasGrad_vel hl0 0)).div (hR.add (HasGrad.const 1)) hR1).congr ?_
    funext k
    fin_cases k <;> simp [dRoeI, e, Gas.dVelRow, vel_zero, vel_one] <;> field_simp <;> (try ring)
  have hy : HasGrad (fun v => (roeOf G v ur n).v 1) (dRoeI G.g ul ur n (Gas.vel ul) (G.varsH ul) (Gas.vel ur) (G.varsH ur) (G.dVarsH ul)).dvy ul := by
    refine (((hR.mul (HasGrad.const (Gas.vel ur 1))).add (hasGrad_vel hl0 1)).div (hR.add (HasGrad.const 1)) hR1).congr ?_
    funext k
    fin_cases k <;> simp [dRoeI, e, Gas.dVelRow, vel_zero, vel_one] <;> field_simp <;> (try ring)
  have hH : HasGrad (fun v => (roeOf G v ur n).H) (dRoeI G.g ul ur n (Gas.vel ul) (G.varsH ul) (Gas.vel ur) (G.varsH ur) (G.dVarsH ul)).dH ul := by
    refine (((hR.mul (HasGrad.const (G.varsH ur))).add (hasGrad_varsH (G := G) hl0)).div (hR.add (HasGrad.const 1)) hR1).congr ?_
    funext k
    simp [dRoeI, e] <;> field_simp <;> (try ring)
  have hv2 : HasGrad (fun v => (roeOf G v ur n).vm2) (dRoeI G.g ul ur n (Gas.vel ul) (G.varsH ul) (Gas.vel ur) (G.varsH ur) (G.dVarsH ul)).dvm2 ul := by
    refine ((hx.mul hx).add (hy.mul hy)).congr ?_
    funext k
    simp only [dRoeI, e]; ring
  refine ⟨hR, ?_, hx, hy, hv2, ?_, hH, ?_⟩
  · refine (hR.mul (HasGrad.coord 0)).congr ?_
    funext k; fin_cases k <;> simp [dRoeI, e]
  · refine ((hx.mul (HasGrad.const (n 0))).add (hy.mul (HasGrad.const (n 1)))).congr ?_
    funext k; simp [dRoeI]
  · refine (((hH.sub (hv2.mul (HasGrad.const (1 / 2)))).cmul (G.g - 1)).sqrt hca).congr ?_
    have hce : Real.sqrt ((G.g - 1) * ((roeOf G ul ur n).H - (roeOf G ul ur n).vm2 * (1 / 2))) = (roeOf G ul ur n).c := rfl
    rw [hce]
    funext k; simp [dRoeI, e]; ring

/-- C18: the right derivatives of the Roe averages are exact. -/
theorem C18_roe_averages_right (hl : Adm G ul) (hr : Adm G ur) (n : V2) :
    HasAvgGrad (fun v => roeOf G ul v n)
      (dRoeJ G.g ul ur n (Gas.vel ul) (G.varsH ul) (Gas.vel ur) (G.varsH ur) (G.dVarsH ur)) ur := by
  have hl0 := hl.rho'
  have hr0 := hr.rho'
  have hq : ur 0 / ul 0 ≠ 0 := (div_pos hr.rho hl.rho).ne'
  have hRp : 0 < (roeOf G ul ur n).R := roe_R_pos hl.rho hr.rho
  have hR0 := hRp.ne'
  have hR1 : (roeOf G ul ur n).R + 1 ≠ 0 := by positivity
  have hc0 := (roe_c_pos (n := n) hl hr).ne'
  have hca := (roe_arg_pos (n := n) hl hr).ne'
  have e : roeAvg G.g ul ur n (Gas.vel ul) (G.varsH ul) (Gas.vel ur) (G.varsH ur) = roeOf G ul ur n := rfl
  have hR : HasGrad (fun v => (roeOf G ul v n).R) (dRoeJ G.g ul ur n (Gas.vel ul) (G.varsH ul) (Gas.vel ur) (G.varsH ur) (G.dVarsH ur)).dR ur := by
    refine (((HasGrad.coord 0).div (HasGrad.const (ul 0)) hl0).sqrt hq).congr ?_
    have hRe : Real.sqrt (ur 0 / ul 0) = (roeOf G ul ur n).R := rfl
    rw [hRe]
    funext k; fin_cases k <;> simp [dRoeJ, e] <;> field_simp
  have hx : HasGrad (fun v => (roeOf G ul v n).v 0) (dRoeJ G.g ul ur n (Gas.vel ul) (G.varsH ul) (Gas.vel ur) (G.varsH ur) (G.dVarsH ur)).dvx ur := by
    refine (((hR.mul (hasGrad_vel hr0 0)).add (HasGrad.const (Gas.vel ul 0))).div (hR.add (HasGrad.const 1)) hR1).congr ?_
    funext k
    fin_cases k <;> simp [dRoeJ, e, Gas.dVelRow, vel_zero, vel_one] <;> field_simp <;> (try ring)
  have hy : HasGrad (fun v => (roeOf G ul v n).v 1) (dRoeJ G.g ul ur n (Gas.vel ul) (G.varsH ul) (Gas.vel ur) (G.varsH ur) (G.dVarsH ur)).dvy ur := by
    refine (((hR.mul (hasGrad_vel hr0 1)).add (HasGrad.const (Gas.vel ul 1))).div (hR.add (HasGrad.const 1)) hR1).congr ?_
    funext k
    fin_cases k <;> simp [dRoeJ, e, Gas.dVelRow, vel_zero, vel_one] <;> field_simp <;> (try ring)
  have hH : HasGrad (fun v => (roeOf G ul v n).H) (dRoeJ G.g ul ur n (Gas.vel ul) (G.varsH ul) (Gas.vel ur) (G.varsH ur) (G.dVarsH ur)).dH ur := by
    refine (((hR.mul (hasGrad_varsH (G := G) hr0)).add (HasGrad.const (G.varsH ul))).div (hR.add (HasGrad.const 1)) hR1).congr ?_
    funext k
    simp [dRoeJ, e] <;> field_simp <;> (try ring)
  have hv2 : HasGrad (fun v => (roeOf G ul v n).vm2) (dRoeJ G.g ul ur n (Gas.vel ul) (G.varsH ul) (Gas.vel ur) (G.varsH ur) (G.dVarsH ur)).dvm2 ur := by
    refine ((hx.mul hx).add (hy.mul hy)).congr ?_
    funext k
    simp only [dRoeJ, e]; ring
  refine ⟨hR, ?_, hx, hy, hv2, ?_, hH, ?_⟩
  · refine (hR.mul (HasGrad.const (ul 0))).congr ?_
    funext k; fin_cases k <;> simp [dRoeJ, e]
  · refine ((hx.mul (HasGrad.const (n 0))).add (hy.mul (HasGrad.const (n 1)))).congr ?_
    funext k; simp [dRoeJ]
  · refine (((hH.sub (hv2.mul (HasGrad.const (1 / 2)))).cmul (G.g - 1)).sqrt hca).congr ?_
    have hce : Real.sqrt ((G.g - 1) * ((roeOf G ul ur n).H - (roeOf G ul ur n).vm2 * (1 / 2))) = (roeOf G ul ur n).c := rfl
    rw [hce]
    funext k; simp [dRoeJ, e]; ring

/-! ### Roe flux -/

/-- The `dlalpha` rows are the derivatives of `lalpha`, given the derivatives of all ingredients. -/
theorem hasGrad_roeLA {A : St → Avg} {d : DAvg} {L : St → St} {dl : Fin 4 → St}
    {dep devn derho : St → ℝ} {ddep ddevn dderho : St}
    (hA : HasAvgGrad A d u) (hL : ∀ i, HasGrad (fun v => L v i) (dl i) u)
    (h1 : HasGrad dep ddep u) (h2 : HasGrad devn ddevn u) (h3 : HasGrad derho dderho u)
    (hc : (A u).c ≠ 0) (i : Fin 4) :
    HasGrad (fun v => roeLA (A v) (L v) (dep v) (devn v) (derho v) i)
      (roeDLA (A u) d (L u) dl (dep u) (devn u) (derho u) ddep ddevn dderho i) u := by
  have hcc : (A u).c * (A u).c ≠ 0 := mul_ne_zero hc hc
  have h2c : 2 * (A u).c * (A u).c ≠ 0 := mul_ne_zero (mul_ne_zero two_ne_zero hc) hc
  fin_cases i
  · refine (((hL 0).mul (h1.sub ((hA.rho.mul hA.c).mul h2))).div ((hA.c.cmul 2).mul hA.c) h2c).congr ?_
    funext k; simp [roeDLA]; field_simp; ring
  · refine ((hL 1).mul (h3.sub (h1.div (hA.c.mul hA.c) hcc))).congr ?_
    funext k; simp [roeDLA, -mul_eq_mul_left_iff]; field_simp; ring
  · refine ((hL 1).mul hA.rho).congr ?_
    funext k; simp [roeDLA]
  · refine (((hL 3).mul (h1.add ((hA.rho.mul hA.c).mul h2))).div ((hA.c.cmul 2).mul hA.c) h2c).congr ?_
    funext k; simp [roeDLA]; field_simp; ring

/-- The `dadu` rows are the derivatives of the dissipation. -/
theorem hasGrad_roeADU {A : St → Avg} {d : DAvg} {la : St → St} {dla : Fin 4 → St}
    {devn dvx dvy : St → ℝ} {ddevn ddvx ddvy : St} (n : V2)
    (hA : HasAvgGrad A d u) (hL : ∀ i, HasGrad (fun v => la v i) (dla i) u)
    (h2 : HasGrad devn ddevn u) (hx : HasGrad dvx ddvx u) (hy : HasGrad dvy ddvy u) (i : Fin 4) :
    HasGrad (fun v => roeADU (A v) (la v) n ![dvx v, dvy v] (devn v) i)
      (roeDADU (A u) d (la u) dla n ![dvx u, dvy u] (devn u) ddvx ddvy ddevn i) u := by
  have hn0 := HasGrad.const (u := u) (n 0)
  have hn1 := HasGrad.const (u := u) (n 1)
  fin_cases i
  · exact ((hL 0).add (hL 1)).add (hL 3)
  · refine ((((hL 0).mul (hA.vx.sub (hA.c.mul hn0))).add (((hL 1).mul hA.vx).add
      ((hL 2).mul (hx.sub (h2.mul hn0))))).add ((hL 3).mul (hA.vx.add (hA.c.mul hn0)))).congr ?_
    funext k; simp [roeDADU]; ring
  · refine ((((hL 0).mul (hA.vy.sub (hA.c.mul hn1))).add (((hL 1).mul hA.vy).add
      ((hL 2).mul (hy.sub (h2.mul hn1))))).add ((hL 3).mul (hA.vy.add (hA.c.mul hn1)))).congr ?_
    funext k; simp [roeDADU]; ring
  · have hhalf : HasGrad (fun v => la v 1 * (A v).vm2 / 2) (fun k => (dla 1 k * (A u).vm2 + la u 1 * d.dvm2 k) / 2) u := by
      refine (((hL 1).mul hA.vm2).div (HasGrad.const 2) two_ne_zero).congr ?_
      funext k; simp; ring
    refine ((((hL 0).mul (hA.H.sub (hA.c.mul hA.vn))).add (hhalf.add
      ((hL 2).mul (((hA.vx.mul hx).add (hA.vy.mul hy)).sub (hA.vn.mul h2))))).add
        ((hL 3).mul (hA.H.add (hA.c.mul hA.vn)))).congr ?_
    funext k; simp [roeDADU]; ring

/-- The entropy fix is inactive near the states: every eigenvalue is strictly above the threshold. -/
def NoFix (a : Avg) : Prop := ∀ i, fixeps * a.c < roeL0 a i

theorem hasGrad_roeL0 {A : St → Avg} {d : DAvg} (hA : HasAvgGrad A d u) (hc : 0 < (A u).c)
    (hf : NoFix (A u)) (i : Fin 4) : HasGrad (fun v => roeL0 (A v) i) (roeDL0 (A u) d i) u := by
  have hp : 0 < fixeps * (A u).c := mul_pos (by norm_num [fixeps]) hc
  have k : ∀ i, 0 < roeL0 (A u) i := fun i => hp.trans (hf i)
  fin_cases i
  · exact hasGrad_abs (hA.vn.sub hA.c) (abs_pos.mp (k 0))
  · exact hasGrad_abs hA.vn (abs_pos.mp (k 1))
  · exact hasGrad_abs hA.vn (abs_pos.mp (k 1))
  · exact hasGrad_abs (hA.vn.add hA.c) (abs_pos.mp (k 3))

theorem hasGrad_roeL {A : St → Avg} {d : DAvg} (hA : HasAvgGrad A d u) (hc : 0 < (A u).c)
    (hf : NoFix (A u)) (i : Fin 4) : HasGrad (fun v => roeL (A v) i) (roeDL (A u) d i) u := by
  have h0 := hasGrad_roeL0 hA hc hf i
  have hlt : fixeps * (A u).c < roeL0 (A u) i := hf i
  have hev : ∀ᶠ v in nhds u, fixeps * (A v).c < roeL0 (A v) i :=
    (hA.c.cmul fixeps).continuousAt.eventually_lt h0.continuousAt hlt
  refine (h0.congr_of_eventuallyEq ?_).congr ?_
  · filter_upwards [hev] with v hv
    simp only [roeL, harten]; rw [if_neg (not_lt.mpr hv.le)]
  · funext k; simp only [roeDL]; rw [if_neg (not_lt.mpr hlt.le)]

/-- Left block of `roeJac` with the eigenvalue derivatives as a parameter. -/
noncomputable def roeRowL (G : Gas) (ul ur : St) (n : V2) (dl : Fin 4 → St) : Fin 4 → St :=
  let vi := Gas.vel ul
  let vj := Gas.vel ur
  let devn := Gas.varsVn ur n - Gas.varsVn ul n
  let dep := G.varsP ur - G.varsP ul
  let derho := ur 0 - ul 0
  let a := roeOf G ul ur n
  let di := dRoeI G.g ul ur n vi (G.varsH ul) vj (G.varsH ur) (G.dVarsH ul)
  fun i k => 1 / 2 * (G.dEulerFlux ul n i k - roeDADU a di (roeLA a (roeL a) dep devn derho)
    (roeDLA a di (roeL a) dl dep devn derho (fun k => -G.dPressure ul k) (fun k => -Gas.dVarsVn ul n k) ![-1, 0, 0, 0])
    n ![vj 0 - vi 0, vj 1 - vi 1] devn (fun k => -Gas.dVelRow ul 0 k) (fun k => -Gas.dVelRow ul 1 k)
    (fun k => -Gas.dVarsVn ul n k) i k)

/-- Right block of `roeJac` with the eigenvalue derivatives as a parameter. -/
noncomputable def roeRowR (G : Gas) (ul ur : St) (n : V2) (dl : Fin 4 → St) : Fin 4 → St :=
  let vi := Gas.vel ul
  let vj := Gas.vel ur
  let devn := Gas.varsVn ur n - Gas.varsVn ul n
  let dep := G.varsP ur - G.varsP ul
  let derho := ur 0 - ul 0
  let a := roeOf G ul ur n
  let dj := dRoeJ G.g ul ur n vi (G.varsH ul) vj (G.varsH ur) (G.dVarsH ur)
  fun i k => 1 / 2 * (G.dEulerFlux ur n i k - roeDADU a dj (roeLA a (roeL a) dep devn derho)
    (roeDLA a dj (roeL a) dl dep devn derho (G.dPressure ur) (Gas.dVarsVn ur n) ![1, 0, 0, 0])
    n ![vj 0 - vi 0, vj 1 - vi 1] devn (Gas.dVelRow ur 0) (Gas.dVelRow ur 1) (Gas.dVarsVn ur n) i k)

theorem roeJac_rowL (i k : Fin 4) : - (roeJac G ul ur n).dfdl i k = roeRowL G ul ur n
    (roeDL (roeOf G ul ur n) (dRoeI G.g ul ur n (Gas.vel ul) (G.varsH ul) (Gas.vel ur) (G.varsH ur) (G.dVarsH ul))) i k := by
  simp only [roeJac, roeRowL]; ring

theorem roeJac_rowR (i k : Fin 4) : (roeJac G ul ur n).dfdr i k = roeRowR G ul ur n
    (roeDL (roeOf G ul ur n) (dRoeJ G.g ul ur n (Gas.vel ul) (G.varsH ul) (Gas.vel ur) (G.varsH ur) (G.dVarsH ur))) i k :=
  rfl

theorem hasGrad_roe_left (hl : Adm G ul) (hr : Adm G ur) (n : V2) {dl : Fin 4 → St}
    (hL : ∀ i, HasGrad (fun v => roeL (roeOf G v ur n) i) (dl i) ul) (i : Fin 4) :
    HasGrad (fun v => roe G v ur n i) (roeRowL G ul ur n dl i) ul := by
  have hc := roe_c_pos (n := n) hl hr
  have hA := C18_roe_averages_left hl hr n
  have hdep : HasGrad (fun v => G.varsP ur - G.varsP v) (fun k => - G.dPressure ul k) ul :=
    ((HasGrad.const (G.varsP ur)).sub (hasGrad_varsP hl.rho')).congr (by funext k; simp)
  have hdevn : HasGrad (fun v => Gas.varsVn ur n - Gas.varsVn v n) (fun k => - Gas.dVarsVn ul n k) ul :=
    ((HasGrad.const (Gas.varsVn ur n)).sub (hasGrad_varsVn hl.rho' n)).congr (by funext k; simp)
  have hder : HasGrad (fun v => ur 0 - v 0) ![-1, 0, 0, 0] ul :=
    ((HasGrad.const (ur 0)).sub (HasGrad.coord 0)).congr (by funext k; fin_cases k <;> simp)
  have hx : HasGrad (fun v => Gas.vel ur 0 - Gas.vel v 0) (fun k => - Gas.dVelRow ul 0 k) ul :=
    ((HasGrad.const (Gas.vel ur 0)).sub (hasGrad_vel hl.rho' 0)).congr (by funext k; simp)
  have hy : HasGrad (fun v => Gas.vel ur 1 - Gas.vel v 1) (fun k => - Gas.dVelRow ul 1 k) ul :=
    ((HasGrad.const (Gas.vel ur 1)).sub (hasGrad_vel hl.rho' 1)).congr (by funext k; simp)
  have hla := hasGrad_roeLA hA hL hdep hdevn hder hc.ne'
  have h1 := hasGrad_roeADU n hA hla hdevn hx hy i
  have h2 := (((C03_eulerFlux G ul n hl.rho' i).add (HasGrad.const (G.eulerFlux ur n i))).sub h1).cmul (1/2)
  have hrev : ∀ᶠ v in nhds ul, v 0 ≠ 0 := (HasGrad.coord 0 (u := ul)).continuousAt.eventually_ne hl.rho'
  refine (h2.congr_of_eventuallyEq ?_).congr ?_
  · filter_upwards [hrev] with v hv
    rw [eulerFlux_eq hv, eulerFlux_eq hr.rho']; rfl
  · funext k
    simp only [roeRowL, Pi.zero_apply]; ring
theorem hasGrad_roe_right (hl : Adm G ul) (hr : Adm G ur) (n : V2) {dl : Fin 4 → St}
    (hL : ∀ i, HasGrad (fun v => roeL (roeOf G ul v n) i) (dl i) ur) (i : Fin 4) :
    HasGrad (fun v => roe G ul v n i) (roeRowR G ul ur n dl i) ur := by
  have hc := roe_c_pos (n := n) hl hr
  have hA := C18_roe_averages_right hl hr n
  have hdep : HasGrad (fun v => G.varsP v - G.varsP ul) (G.dPressure ur) ur :=
    ((hasGrad_varsP hr.rho').sub (HasGrad.const (G.varsP ul))).congr (by funext k; simp)
  have hdevn : HasGrad (fun v => Gas.varsVn v n - Gas.varsVn ul n) (Gas.dVarsVn ur n) ur :=
    ((hasGrad_varsVn hr.rho' n).sub (HasGrad.const (Gas.varsVn ul n))).congr (by funext k; simp)
  have hder : HasGrad (fun v => v 0 - ul 0) ![1, 0, 0, 0] ur :=
    ((HasGrad.coord 0).sub (HasGrad.const (ul 0))).congr (by funext k; fin_cases k <;> simp)
  have hx : HasGrad (fun v => Gas.vel v 0 - Gas.vel ul 0) (Gas.dVelRow ur 0) ur :=
    ((hasGrad_vel hr.rho' 0).sub (HasGrad.const (Gas.vel ul 0))).congr (by funext k; simp)
  have hy : HasGrad (fun v => Gas.vel v 1 - Gas.vel ul 1) (Gas.dVelRow ur 1) ur :=
    ((hasGrad_vel hr.rho' 1).sub (HasGrad.const (Gas.vel ul 1))).congr (by funext k; simp)
  have hla := hasGrad_roeLA hA hL hdep hdevn hder hc.ne'
  have h1 := hasGrad_roeADU n hA hla hdevn hx hy i
  have h2 := (((HasGrad.const (G.eulerFlux ul n i)).add (C03_eulerFlux G ur n hr.rho' i)).sub h1).cmul (1/2)
  have hrev : ∀ᶠ v in nhds ur, v 0 ≠ 0 := (HasGrad.coord 0 (u := ur)).continuousAt.eventually_ne hr.rho'
  refine (h2.congr_of_eventuallyEq ?_).congr ?_
  · filter_upwards [hrev] with v hv
    rw [eulerFlux_eq hv, eulerFlux_eq hl.rho']; rfl
  · funext k
    simp only [roeRowR, Pi.zero_apply]; ring

/-- C18 (partial) for Roe: the Jacobian is exact wherever the entropy fix is inactive.  With the fix
active the full statement fails, see `C18_roe_refuted`. -/
theorem C18_roe_exact_partial (hl : Adm G ul) (hr : Adm G ur) (n : V2) (hf : NoFix (roeOf G ul ur n)) :
    IsFluxJac (fun a b => roe G a b n) (roeJac G ul ur n) ul ur := by
  have hc := roe_c_pos (n := n) hl hr
  intro i
  refine ⟨(hasGrad_roe_left hl hr n (hasGrad_roeL (C18_roe_averages_left hl hr n) hc hf) i).congr ?_,
    (hasGrad_roe_right hl hr n (hasGrad_roeL (C18_roe_averages_right hl hr n) hc hf) i).congr ?_⟩
  · funext k; rw [roeJac_rowL]
  · funext k; rw [roeJac_rowR]

/-- Concrete case: two different supersonic states. -/
example : Adm air uS4 ∧ Adm air uS5 ∧ NoFix (roeOf air uS4 uS5 ![1, 0]) := by
  refine ⟨adm_uS4, adm_uS5, ?_⟩
  obtain ⟨h1, h2⟩ := roe_uS
  have hc := roe_c_pos (n := ![1, 0]) adm_uS4 adm_uS5
  have hx : fixeps * (roeOf air uS4 uS5 ![1, 0]).c < 1 := by rw [fixeps]; linarith
  intro i
  fin_cases i
  · exact lt_of_lt_of_le (by rw [h1]; linarith : _ < (roeOf air uS4 uS5 ![1, 0]).vn - _) (le_abs_self _)
  · exact lt_of_lt_of_le (by rw [h1]; linarith : _ < (roeOf air uS4 uS5 ![1, 0]).vn) (le_abs_self _)
  · exact lt_of_lt_of_le (by rw [h1]; linarith : _ < (roeOf air uS4 uS5 ![1, 0]).vn) (le_abs_self _)
  · exact lt_of_lt_of_le (by rw [h1]; linarith : _ < (roeOf air uS4 uS5 ![1, 0]).vn + _) (le_abs_self _)

theorem roeDLA_opposite (a : Avg) (di dj : DAvg) (l : St) (dli dlj : Fin 4 → St) (dp dvn : St) (k : Fin 4)
    (i : Fin 4) (hi : i ≠ 2) :
    roeDLA a di l dli 0 0 0 (fun k => -dp k) (fun k => -dvn k) ![-1, 0, 0, 0] i k
      + roeDLA a dj l dlj 0 0 0 dp dvn ![1, 0, 0, 0] i k = 0 := by
  fin_cases i
  · simp [roeDLA]; ring
  · fin_cases k <;> simp [roeDLA] <;> ring
  · exact absurd rfl hi
  · simp [roeDLA]; ring

theorem roeDADU_opposite (a : Avg) (di dj : DAvg) (la : St) (dlai dlaj : Fin 4 → St) (n : V2)
    (dvn dvx dvy : St) (k : Fin 4) (h0 : la 0 = 0) (h1 : la 1 = 0) (h3 : la 3 = 0)
    (h : ∀ i, i ≠ 2 → dlai i k + dlaj i k = 0) (i : Fin 4) :
    roeDADU a di la dlai n ![0, 0] 0 (fun k => -dvx k) (fun k => -dvy k) (fun k => -dvn k) i k
      + roeDADU a dj la dlaj n ![0, 0] 0 dvx dvy dvn i k = 0 := by
  have e0 : dlai 0 k = - dlaj 0 k := by linarith [h 0 (by decide)]
  have e1 : dlai 1 k = - dlaj 1 k := by linarith [h 1 (by decide)]
  have e3 : dlai 3 k = - dlaj 3 k := by linarith [h 3 (by decide)]
  fin_cases i <;> simp [roeDADU, h0, h1, h3, e0, e1, e3] <;> ring

/-- C18: at equal states the Roe blocks add up to the analytical Jacobian, entropy fix or not. -/
theorem C18_roe_sum (G : Gas) (u : St) (n : V2) : SumsTo (roeJac G u u n) (G.dEulerFlux u n) := by
  intro i k
  rw [roeJac_rowL, roeJac_rowR]
  simp only [roeRowL, roeRowR, sub_self]
  generalize roeOf G u u n = a
  generalize dRoeI G.g u u n (Gas.vel u) (G.varsH u) (Gas.vel u) (G.varsH u) (G.dVarsH u) = di
  generalize dRoeJ G.g u u n (Gas.vel u) (G.varsH u) (Gas.vel u) (G.varsH u) (G.dVarsH u) = dj
  have h := roeDADU_opposite a di dj (roeLA a (roeL a) 0 0 0) _ _ n (Gas.dVarsVn u n) (Gas.dVelRow u 0)
    (Gas.dVelRow u 1) k (by simp [roeLA]) (by simp [roeLA]) (by simp [roeLA])
    (fun i hi => roeDLA_opposite a di dj (roeL a) (roeDL a di) (roeDL a dj) (G.dPressure u) (Gas.dVarsVn u n) k i hi) i
  linear_combination (-1 / 2 : ℝ) * h

/-- True eigenvalue derivatives when the averaged normal velocity vanishes. -/
theorem hasGrad_roeL_stagnant {A : St → Avg} {d : DAvg} (hA : HasAvgGrad A d u) (hc : 0 < (A u).c)
    (h0 : (A u).vn = 0) (i : Fin 4) :
    HasGrad (fun v => roeL (A v) i) ((![roeDL0 (A u) d 0, fun k => 1 / 2 * fixeps * d.dc k,
      fun k => 1 / 2 * fixeps * d.dc k, roeDL0 (A u) d 3] : Fin 4 → St) i) u := by
  have hf : (0:ℝ) < fixeps := by norm_num [fixeps]
  have hf1 : fixeps < 1 := by norm_num [fixeps]
  have hdel : 0 < fixeps * (A u).c := mul_pos hf hc
  have hlt : fixeps * (A u).c < (A u).c := by nlinarith
  have hmid : HasGrad (fun v => harten (fixeps * (A v).c) |(A v).vn|) (fun k => 1 / 2 * fixeps * d.dc k) u := by
    have h1 : (fixeps * (A u).c) * 2 ≠ 0 := by positivity
    have hq := ((hA.vn.mul hA.vn).add ((hA.c.cmul fixeps).mul (hA.c.cmul fixeps))).div
      ((hA.c.cmul fixeps).mul (HasGrad.const 2)) h1
    have hev : ∀ᶠ v in nhds u, |(A v).vn| < fixeps * (A v).c :=
      hA.vn.continuousAt.abs.eventually_lt (hA.c.cmul fixeps).continuousAt (by simpa [h0] using hdel)
    refine (hq.congr_of_eventuallyEq ?_).congr ?_
    · filter_upwards [hev] with v hv
      simp only [harten]; rw [if_pos hv, abs_mul_abs_self, mul_comm (2:ℝ)]
    · funext k; simp [h0]; field_simp; ring
  have hend : ∀ {f : St → ℝ} {df : St}, HasGrad f df u → |f u| = (A u).c →
      HasGrad (fun v => harten (fixeps * (A v).c) |f v|) (fun k => sgn (f u) * df k) u := by
    intro f df hfd habs
    have hne : f u ≠ 0 := by intro h; rw [h, abs_zero] at habs; linarith
    have hev : ∀ᶠ v in nhds u, fixeps * (A v).c < |f v| :=
      (hA.c.cmul fixeps).continuousAt.eventually_lt hfd.continuousAt.abs (by rw [habs]; exact hlt)
    refine (hasGrad_abs hfd hne).congr_of_eventuallyEq ?_
    filter_upwards [hev] with v hv
    simp only [harten]; rw [if_neg (not_lt.mpr hv.le)]
  fin_cases i
  · exact hend (hA.vn.sub hA.c) (by rw [h0]; simp [abs_of_pos hc])
  · exact hmid
  · exact hmid
  · exact hend (hA.vn.add hA.c) (by rw [h0]; simp [abs_of_pos hc])

/-- The fix is active for eigenvalue `i`. -/
def Fixed (a : Avg) (i : Fin 4) : Prop := roeL0 a i < fixeps * a.c

theorem hasGrad_harten {f c : St → ℝ} {df dc : St} (hf : HasGrad f df u) (hc : HasGrad c dc u) (hp : 0 < c u)
    (hlt : |f u| < fixeps * c u) :
    HasGrad (fun v => harten (fixeps * c v) |f v|) (fun k => f u * df k / (fixeps * c u) +
      (1 / 2 * fixeps - f u * f u / (2 * fixeps * (c u * c u))) * dc k) u := by
  have hfe : (0:ℝ) < fixeps := by norm_num [fixeps]
  have h1 : (fixeps * c u) * 2 ≠ 0 := by positivity
  have hq := ((hf.mul hf).add ((hc.cmul fixeps).mul (hc.cmul fixeps))).div ((hc.cmul fixeps).mul (HasGrad.const 2)) h1
  have hev : ∀ᶠ v in nhds u, |f v| < fixeps * c v :=
    hf.continuousAt.abs.eventually_lt (hc.cmul fixeps).continuousAt hlt
  refine (hq.congr_of_eventuallyEq ?_).congr ?_
  · filter_upwards [hev] with v hv
    simp only [harten]; rw [if_pos hv, abs_mul_abs_self, mul_comm (2:ℝ)]
  · funext k; simp; field_simp; ring

theorem sgn_mul_abs (x : ℝ) : sgn x * |x| = x := by
  unfold sgn
  split_ifs with h
  · rw [abs_of_nonneg h, one_mul]
  · rw [abs_of_neg (lt_of_not_ge h)]; ring

/-- C18, Roe with the entropy fix active for an eigenvalue: its derivative is the coded one less a term which
comes from using the eigenvalue after the fix. -/
theorem C18_roe_fix_error {A : St → Avg} {d : DAvg} (hA : HasAvgGrad A d u) (hc : 0 < (A u).c) {i : Fin 4}
    (hf : Fixed (A u) i) : roeL0 (A u) i < roeL (A u) i ∧
    HasGrad (fun v => roeL (A v) i) (fun k => roeDL (A u) d i k - (roeL (A u) i - roeL0 (A u) i) *
      (2 * (A u).c * roeDL0 (A u) d i k - (roeL (A u) i + roeL0 (A u) i) * d.dc k) / (2 * fixeps * ((A u).c * (A u).c))) u := by
  have hfe : (0:ℝ) < fixeps := by norm_num [fixeps]
  have hdel : 0 < fixeps * (A u).c := mul_pos hfe hc
  have hf' : roeL0 (A u) i < fixeps * (A u).c := hf
  have hL : roeL (A u) i = (roeL0 (A u) i * roeL0 (A u) i + fixeps * (A u).c * (fixeps * (A u).c)) / (2 * (fixeps * (A u).c)) := by
    simp only [roeL, harten]; rw [if_pos hf']
  constructor
  · rw [hL, lt_div_iff₀ (by positivity)]
    have : 0 < fixeps * (A u).c - roeL0 (A u) i := sub_pos.2 hf
    nlinarith [mul_pos this this]
  · have key : ∀ {f : St → ℝ} {df : St}, HasGrad f df u → |f u| = roeL0 (A u) i → (∀ k, roeDL0 (A u) d i k = sgn (f u) * df k) →
        (∀ v, roeL0 (A v) i = |f v|) → HasGrad (fun v => roeL (A v) i) (fun k => roeDL (A u) d i k - (roeL (A u) i - roeL0 (A u) i) *
      (2 * (A u).c * roeDL0 (A u) d i k - (roeL (A u) i + roeL0 (A u) i) * d.dc k) / (2 * fixeps * ((A u).c * (A u).c))) u := by
      intro f df hfd h1 h2 h3
      have := hasGrad_harten hfd hA.c hc (by rw [h1]; exact hf)
      have he : (fun v => roeL (A v) i) = fun v => harten (fixeps * (A v).c) |f v| := by
        funext v; simp only [roeL]; rw [h3]
      rw [he]
      refine this.congr ?_
      funext k
      have hff : roeL0 (A u) i * roeL0 (A u) i = f u * f u := by rw [← h1, abs_mul_abs_self]
      have hfl : roeL0 (A u) i * roeDL0 (A u) d i k = f u * df k := by
        rw [h2, ← h1]
        have := sgn_mul_abs (f u)
        linear_combination df k * this
      simp only [roeDL]
      rw [if_pos hf', ← hfl, ← hff]
      have hcn := hc.ne'
      have hfn := hfe.ne'
      field_simp
      ring
    fin_cases i
    · exact key (hA.vn.sub hA.c) rfl (fun k => rfl) (fun v => rfl)
    · exact key hA.vn rfl (fun k => rfl) (fun v => rfl)
    · exact key hA.vn rfl (fun k => rfl) (fun v => rfl)
    · exact key (hA.vn.add hA.c) rfl (fun k => rfl) (fun v => rfl)

/-- C18, Roe: with the fix active the coded eigenvalue derivative is right exactly if the derivatives of the wave
speed and of the sound speed happen to be in a certain proportion. -/
theorem C18_roe_fix_iff {A : St → Avg} {d : DAvg} (hA : HasAvgGrad A d u) (hc : 0 < (A u).c) {i : Fin 4}
    (hf : Fixed (A u) i) : HasGrad (fun v => roeL (A v) i) (roeDL (A u) d i) u ↔
      ∀ k, 2 * (A u).c * roeDL0 (A u) d i k = (roeL (A u) i + roeL0 (A u) i) * d.dc k := by
  obtain ⟨h1, h2⟩ := C18_roe_fix_error hA hc hf
  have hfe : (0:ℝ) < fixeps := by norm_num [fixeps]
  have hden : 2 * fixeps * ((A u).c * (A u).c) ≠ 0 := by positivity
  constructor
  · intro h k
    have e := congrFun (h.unique h2) k
    have e0 : (roeL (A u) i - roeL0 (A u) i) * (2 * (A u).c * roeDL0 (A u) d i k - (roeL (A u) i + roeL0 (A u) i) * d.dc k) /
        (2 * fixeps * ((A u).c * (A u).c)) = 0 := by linarith
    rw [div_eq_zero_iff] at e0
    have := (mul_eq_zero.1 (e0.resolve_right hden)).resolve_left (sub_pos.2 h1).ne'
    linarith
  · intro h
    refine h2.congr ?_
    funext k
    rw [h k, sub_self, mul_zero, zero_div, sub_zero]

/-- Concrete case: a stationary contact between densities 1 and 4, second eigenvalue. -/
example : Adm air uC1 ∧ Adm air uC4 ∧ 0 < (roeOf air uC1 uC4 ![1, 0]).c ∧ Fixed (roeOf air uC1 uC4 ![1, 0]) 1 := by
  have hc : 0 < (roeOf air uC1 uC4 ![1, 0]).c := roe_c_pos adm_uC1 adm_uC4
  have hvn : (roeOf air uC1 uC4 ![1, 0]).vn = 0 := by
    simp [roeOf, roeAvg, uC1, uC4, dot, Gas.vel]
  refine ⟨adm_uC1, adm_uC4, hc, ?_⟩
  show |(roeOf air uC1 uC4 ![1, 0]).vn| < _
  rw [hvn, abs_zero]
  exact mul_pos (by norm_num [fixeps]) hc

/-- How the mass row depends on the derivative of the middle eigenvalue. -/
theorem roeRowL_diff (dl dl' : Fin 4 → St) (k : Fin 4) (h0 : dl 0 k = dl' 0 k) (h3 : dl 3 k = dl' 3 k) :
    roeRowL G ul ur n dl 0 k - roeRowL G ul ur n dl' 0 k = -(1 / 2) * (dl 1 k - dl' 1 k) *
      (ur 0 - ul 0 - (G.varsP ur - G.varsP ul) / ((roeOf G ul ur n).c * (roeOf G ul ur n).c)) := by
  simp [roeRowL, roeDADU, roeDLA, h0, h3]; ring

/-- C18 refuted for Roe with the entropy fix active: at a stationary contact the mass row of the left
block is not the derivative, because `l[ivar]` is overwritten by the fix before its derivative is
computed. -/
theorem C18_roe_refuted : Adm air uC1 ∧ Adm air uC4 ∧
    ¬ IsFluxJac (fun a b => roe air a b ![1, 0]) (roeJac air uC1 uC4 ![1, 0]) uC1 uC4 := by
  refine ⟨adm_uC1, adm_uC4, fun hJ => ?_⟩
  have hc : 0 < (roeOf air uC1 uC4 ![1, 0]).c := roe_c_pos adm_uC1 adm_uC4
  have hR : (roeOf air uC1 uC4 ![1, 0]).R = 2 := by
    have : (4 : ℝ) = 2 ^ 2 := by norm_num
    simp [roeOf, roeAvg, uC1, uC4]; rw [this, Real.sqrt_sq (by norm_num)]
  have hvn : (roeOf air uC1 uC4 ![1, 0]).vn = 0 := by
    simp [roeOf, roeAvg, uC1, uC4, dot, Gas.vel]
  have hA := C18_roe_averages_left adm_uC1 adm_uC4 ![1, 0]
  have h1 := hasGrad_roe_left adm_uC1 adm_uC4 ![1, 0] (hasGrad_roeL_stagnant hA hc hvn) 0
  have h2 := congrFun (h1.unique (hJ 0).1) 1
  rw [roeJac_rowL] at h2
  set di := dRoeI air.g uC1 uC4 ![1, 0] (Gas.vel uC1) (air.varsH uC1) (Gas.vel uC4) (air.varsH uC4) (air.dVarsH uC1) with hdi
  have hdv : di.dvn 1 = 1 / 3 := by
    have e : roeAvg air.g uC1 uC4 ![1, 0] (Gas.vel uC1) (air.varsH uC1) (Gas.vel uC4) (air.varsH uC4) = roeOf air uC1 uC4 ![1, 0] := rfl
    simp only [hdi, dRoeI, e, hR]
    simp [uC1]; norm_num
  have hdc : di.dc 1 = 0 := by
    have e : roeAvg air.g uC1 uC4 ![1, 0] (Gas.vel uC1) (air.varsH uC1) (Gas.vel uC4) (air.varsH uC4) = roeOf air uC1 uC4 ![1, 0] := rfl
    have hv0 : (roeOf air uC1 uC4 ![1, 0]).v 0 = 0 := by simp [roeOf, roeAvg, uC1, uC4, Gas.vel]
    have hv1 : (roeOf air uC1 uC4 ![1, 0]).v 1 = 0 := by
      have := hR
      simp only [roeOf, roeAvg] at this ⊢
      simp [Gas.vel, this]
      simp [uC1, uC4]
      try norm_num
    simp only [hdi, dRoeI, e, hv0, hv1]
    simp [Gas.dVarsH, Gas.dPressure, uC1]
  have hdl : roeDL (roeOf air uC1 uC4 ![1, 0]) di 1 1 = 1 / 6 := by
    have hf : (0:ℝ) < fixeps := by norm_num [fixeps]
    have hdel : 0 < fixeps * (roeOf air uC1 uC4 ![1, 0]).c := mul_pos hf hc
    have hl0 : roeL0 (roeOf air uC1 uC4 ![1, 0]) 1 = 0 := by simp [roeL0, hvn]
    have hl : roeL (roeOf air uC1 uC4 ![1, 0]) 1 = fixeps * (roeOf air uC1 uC4 ![1, 0]).c / 2 := by
      simp only [roeL, hl0, harten, if_pos hdel]; field_simp; try ring
    simp only [roeDL, hl0, if_pos hdel, hl, hdc, roeDL0, hvn, sgn]
    simp [hdv]; field_simp; try norm_num
  have hf1 : fixeps < 1 := by norm_num [fixeps]
  have hnf : ∀ i : Fin 4, roeL0 (roeOf air uC1 uC4 ![1, 0]) i = (roeOf air uC1 uC4 ![1, 0]).c →
      roeDL (roeOf air uC1 uC4 ![1, 0]) di i 1 = roeDL0 (roeOf air uC1 uC4 ![1, 0]) di i 1 := by
    intro i hi
    simp only [roeDL, hi]
    rw [if_neg (by nlinarith)]
  have h3 := roeRowL_diff (G := air) (ul := uC1) (ur := uC4) (n := ![1, 0])
    (![roeDL0 (roeOf air uC1 uC4 ![1, 0]) di 0, fun k => 1 / 2 * fixeps * di.dc k, fun k => 1 / 2 * fixeps * di.dc k,
        roeDL0 (roeOf air uC1 uC4 ![1, 0]) di 3]) (roeDL (roeOf air uC1 uC4 ![1, 0]) di) 1
    (hnf 0 (by simp [roeL0, hvn, abs_of_pos hc])).symm (hnf 3 (by simp [roeL0, hvn, abs_of_pos hc])).symm
  rw [h2, sub_self, hdl, contact_uC.pl, contact_uC.pr] at h3
  simp [hdc, uC1, uC4] at h3
  norm_num at h3

end Flux
end FVENS
