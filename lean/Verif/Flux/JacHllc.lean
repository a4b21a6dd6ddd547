import Verif.Flux.JacAvg

/-!
# Property C18: HLLC Jacobian
-/

namespace FVENS
namespace Flux
variable {G : Gas} {u ul ur : St} {n : V2}

/-- Derivative of the smaller of two functions, chosen with the comparison used in the code. -/
theorem hasGrad_pick_min {f g : St → ℝ} {df dg : St} (hf : HasGrad f df u) (hg : HasGrad g dg u)
    (hne : f u ≠ g u) :
    HasGrad (fun v => if f v > g v then g v else f v) (fun k => if f u > g u then dg k else df k) u := by
  rcases lt_or_gt_of_ne hne with h | h
  · have hev : ∀ᶠ v in nhds u, f v < g v := hf.continuousAt.eventually_lt hg.continuousAt h
    refine (hf.congr_of_eventuallyEq ?_).congr ?_
    · filter_upwards [hev] with v hv; rw [if_neg (not_lt.mpr hv.le)]
    · funext k; rw [if_neg (not_lt.mpr h.le)]
  · have hev : ∀ᶠ v in nhds u, g v < f v := hg.continuousAt.eventually_lt hf.continuousAt h
    refine (hg.congr_of_eventuallyEq ?_).congr ?_
    · filter_upwards [hev] with v hv; rw [if_pos hv]
    · funext k; rw [if_pos h]

/-- Derivative of the larger of two functions, chosen with the comparison used in the code. -/
theorem hasGrad_pick_max {f g : St → ℝ} {df dg : St} (hf : HasGrad f df u) (hg : HasGrad g dg u)
    (hne : f u ≠ g u) :
    HasGrad (fun v => if f v < g v then g v else f v) (fun k => if f u < g u then dg k else df k) u := by
  rcases lt_or_gt_of_ne hne with h | h
  · have hev : ∀ᶠ v in nhds u, f v < g v := hf.continuousAt.eventually_lt hg.continuousAt h
    refine (hg.congr_of_eventuallyEq ?_).congr ?_
    · filter_upwards [hev] with v hv; rw [if_pos hv]
    · funext k; rw [if_pos h]
  · have hev : ∀ᶠ v in nhds u, g v < f v := hg.continuousAt.eventually_lt hf.continuousAt h
    refine (hf.congr_of_eventuallyEq ?_).congr ?_
    · filter_upwards [hev] with v hv; rw [if_neg (not_lt.mpr hv.le)]
    · funext k; rw [if_neg (not_lt.mpr h.le)]

/-- Contact speed, left derivative. -/
theorem hasGrad_contact_left {vn p sl sr : St → ℝ} {dvn dp dsl dsr : St} (rr vnj pj : ℝ)
    (hv : HasGrad vn dvn u) (hp : HasGrad p dp u) (hsl : HasGrad sl dsl u) (hsr : HasGrad sr dsr u)
    (hd : rr * (sr u - vnj) - u 0 * (sl u - vn u) ≠ 0) :
    HasGrad (fun v => contact (v 0) rr (vn v) vnj (p v) pj (sl v) (sr v))
      (dSmI (u 0) rr (vn u) vnj (p u) pj (sl u) (sr u) dsl dsr dvn dp) u := by
  have h0 := HasGrad.coord 0 (u := u)
  have hden := ((hsr.sub (HasGrad.const vnj)).cmul rr).sub (h0.mul (hsl.sub hv))
  have hnum := ((((hsr.sub (HasGrad.const vnj)).cmul (rr * vnj)).sub ((h0.mul hv).mul (hsl.sub hv))).add hp).sub
    (HasGrad.const pj)
  refine (hnum.div hden hd).congr ?_
  funext k
  fin_cases k <;> simp [dSmI] <;> ring

/-- Contact speed, right derivative. -/
theorem hasGrad_contact_right {vn p sl sr : St → ℝ} {dvn dp dsl dsr : St} (rl vni pi : ℝ)
    (hv : HasGrad vn dvn u) (hp : HasGrad p dp u) (hsl : HasGrad sl dsl u) (hsr : HasGrad sr dsr u)
    (hd : u 0 * (sr u - vn u) - rl * (sl u - vni) ≠ 0) :
    HasGrad (fun v => contact rl (v 0) vni (vn v) pi (p v) (sl v) (sr v))
      (dSmJ rl (u 0) vni (vn u) pi (p u) (sl u) (sr u) dsl dsr dvn dp) u := by
  have h0 := HasGrad.coord 0 (u := u)
  have hden := (h0.mul (hsr.sub hv)).sub ((hsl.sub (HasGrad.const vni)).cmul rl)
  have hnum := ((((h0.mul hv).mul (hsr.sub hv)).sub ((hsl.sub (HasGrad.const vni)).cmul (rl * vni))).add
    (HasGrad.const pi)).sub hp
  refine (hnum.div hden hd).congr ?_
  funext k
  fin_cases k <;> simp [dSmJ] <;> ring

/-- Star state, derivative with respect to its own side. -/
theorem hasGrad_star_own {vn p ss sm : St → ℝ} {dvn dp dss dsm : St} (n : V2)
    (hv : HasGrad vn dvn u) (hp : HasGrad p dp u) (hss : HasGrad ss dss u) (hsm : HasGrad sm dsm u)
    (hd : ss u - sm u ≠ 0) (i : Fin 4) :
    HasGrad (fun v => star v n (vn v) (p v) (ss v) (sm v) i)
      (dStarI u n (vn u) (p u) (ss u) (sm u) dvn dp dss dsm i) u := by
  have hden := hss.sub hsm
  have hps := (((HasGrad.coord 0 (u := u)).mul (hv.sub hss)).mul (hv.sub hsm)).add hp
  fin_cases i
  · refine ((((HasGrad.coord 0).mul (hss.sub hv))).div hden hd).congr ?_
    funext k
    fin_cases k <;> simp [dStarI] <;> field_simp <;> ring
  · refine ((((hss.sub hv).mul (HasGrad.coord 1)).add ((hps.sub hp).mul (HasGrad.const (n 0)))).div hden hd).congr ?_
    funext k
    fin_cases k <;> simp [dStarI, dPsI] <;> ring
  · refine ((((hss.sub hv).mul (HasGrad.coord 2)).add ((hps.sub hp).mul (HasGrad.const (n 1)))).div hden hd).congr ?_
    funext k
    fin_cases k <;> simp [dStarI, dPsI] <;> ring
  · refine (((((hss.sub hv).mul (HasGrad.coord 3)).sub (hp.mul hv)).add (hps.mul hsm)).div hden hd).congr ?_
    funext k
    fin_cases k <;> simp [dStarI, dPsI] <;> ring

/-- Star state, derivative with respect to the other side. -/
theorem hasGrad_star_other {ss sm : St → ℝ} {dss dsm : St} (w : St) (n : V2) (vn p : ℝ)
    (hss : HasGrad ss dss u) (hsm : HasGrad sm dsm u) (hd : ss u - sm u ≠ 0) (i : Fin 4) :
    HasGrad (fun v => star w n vn p (ss v) (sm v) i) (dStarJ w n vn p (ss u) (sm u) dss dsm i) u := by
  have hden := hss.sub hsm
  have hv := HasGrad.const (u := u) vn
  have hp := HasGrad.const (u := u) p
  have hw := fun k => HasGrad.const (u := u) (w k)
  have hps := (((hw 0).mul (hv.sub hss)).mul (hv.sub hsm)).add hp
  fin_cases i
  · refine ((((hw 0).mul (hss.sub hv))).div hden hd).congr ?_
    funext k
    simp [dStarJ] <;> field_simp <;> ring
  · refine ((((hss.sub hv).mul (hw 1)).add ((hps.sub hp).mul (HasGrad.const (n 0)))).div hden hd).congr ?_
    funext k
    simp [dStarJ, dPsJ] <;> ring
  · refine ((((hss.sub hv).mul (hw 2)).add ((hps.sub hp).mul (HasGrad.const (n 1)))).div hden hd).congr ?_
    funext k
    simp [dStarJ, dPsJ] <;> ring
  · refine (((((hss.sub hv).mul (hw 3)).sub (hp.mul hv)).add (hps.mul hsm)).div hden hd).congr ?_
    funext k
    simp [dStarJ, dPsJ] <;> ring

/-- None of the HLLC switches is exactly at its threshold. -/
structure NoTie (G : Gas) (ul ur : St) (n : V2) : Prop where
  l : Gas.varsVn ul n - cSide G ul ≠ (roeOf G ul ur n).vn - (roeOf G ul ur n).c
  r : Gas.varsVn ur n + cSide G ur ≠ (roeOf G ul ur n).vn + (roeOf G ul ur n).c
  sl : slOf G ul ur n ≠ 0
  sm : smOf G ul ur n ≠ 0
  sr : srOf G ul ur n ≠ 0

theorem hasGrad_hllc_left (hl : Adm G ul) (hr : Adm G ur) (n : V2) (ht : NoTie G ul ur n) (i : Fin 4) :
    HasGrad (fun v => hllc G v ur n i) (fun k => - (hllcJac G ul ur n).dfdl i k) ul := by
  have hd := (den_pos (n := n) hl hr).ne'
  have hA := C18_roe_averages_left hl hr n
  have hv := hasGrad_varsVn hl.rho' n
  have hp := hasGrad_varsP (G := G) hl.rho'
  have hc := hasGrad_c hl
  have hE := C03_eulerFlux G ul n hl.rho' i
  have hsl : HasGrad (fun v => slOf G v ur n) _ ul := hasGrad_pick_min (hv.sub hc) (hA.vn.sub hA.c) ht.l
  have hsr : HasGrad (fun v => srOf G v ur n) _ ul := hasGrad_pick_max (HasGrad.const (Gas.varsVn ur n + cSide G ur)) (hA.vn.add hA.c) ht.r
  have hsm : HasGrad (fun v => smOf G v ur n) _ ul := hasGrad_contact_left (ur 0) (Gas.varsVn ur n) (G.varsP ur) hv hp hsl hsr hd
  have hrev : ∀ᶠ v in nhds ul, v 0 ≠ 0 := (HasGrad.coord 0 (u := ul)).continuousAt.eventually_ne hl.rho'
  rcases lt_or_gt_of_ne ht.sl with l0 | l0
  · have el : ∀ᶠ v in nhds ul, slOf G v ur n < 0 := hsl.continuousAt.eventually (gt_mem_nhds l0)
    have nl : ¬ slOf G ul ur n > 0 := not_lt.mpr l0.le
    rcases lt_or_gt_of_ne ht.sm with m0 | m0
    · have em : ∀ᶠ v in nhds ul, smOf G v ur n < 0 := hsm.continuousAt.eventually (gt_mem_nhds m0)
      have nm : ¬ (slOf G ul ur n ≤ 0 ∧ smOf G ul ur n > 0) := fun h => by linarith [h.2]
      rcases lt_or_gt_of_ne ht.sr with r0 | r0
      · have er : ∀ᶠ v in nhds ul, srOf G v ur n < 0 := hsr.continuousAt.eventually (gt_mem_nhds r0)
        have nr : ¬ (smOf G ul ur n ≤ 0 ∧ srOf G ul ur n ≥ 0) := fun h => by linarith [h.2]
        refine ((HasGrad.const (G.eulerFlux ur n i)).congr_of_eventuallyEq ?_).congr ?_
        · filter_upwards [hrev, el, em, er] with v hv k1 k2 k3
          rw [eulerFlux_eq hr.rho']
          simp only [hllc, hllcCore]
          rw [if_neg (not_lt.mpr k1.le), if_neg (fun h => absurd h.2 (not_lt.mpr k2.le)),
            if_neg (fun h => absurd h.2 (not_le.mpr k3))]
        · funext k
          simp only [hllcJac, if_neg nl, if_neg nm, if_neg nr]
          try simp
      · have er : ∀ᶠ v in nhds ul, 0 < srOf G v ur n := hsr.continuousAt.eventually (lt_mem_nhds r0)
        have pr : smOf G ul ur n ≤ 0 ∧ srOf G ul ur n ≥ 0 := ⟨m0.le, r0.le⟩
        have hst := hasGrad_star_other ur n (Gas.varsVn ur n) (G.varsP ur) hsr hsm (by linarith) i
        have hF := (HasGrad.const (G.eulerFlux ur n i)).add (hsr.mul (hst.sub (HasGrad.const (ur i))))
        refine (hF.congr_of_eventuallyEq ?_).congr ?_
        · filter_upwards [hrev, el, em, er] with v hv k1 k2 k3
          rw [eulerFlux_eq hr.rho']
          simp only [hllc, hllcCore]
          rw [if_neg (not_lt.mpr k1.le), if_neg (fun h => absurd h.2 (not_lt.mpr k2.le)),
            if_pos ⟨k2.le, k3.le⟩]
        · funext k
          simp only [hllcJac, if_neg nl, if_neg nm, if_pos pr]
          by_cases hik : i = k
          · subst hik; simp [delta] <;> ring
          · have hki : ¬ k = i := fun h => hik h.symm
            simp [delta, hik, hki, Pi.single_apply] <;> ring
    · have em : ∀ᶠ v in nhds ul, 0 < smOf G v ur n := hsm.continuousAt.eventually (lt_mem_nhds m0)
      have pm : slOf G ul ur n ≤ 0 ∧ smOf G ul ur n > 0 := ⟨l0.le, m0⟩
      have hst := hasGrad_star_own n hv hp hsl hsm (by linarith) i
      have hF := (hE).add (hsl.mul (hst.sub (HasGrad.coord i)))
      refine (hF.congr_of_eventuallyEq ?_).congr ?_
      · filter_upwards [hrev, el, em] with v hv k1 k2
        rw [eulerFlux_eq hv]
        simp only [hllc, hllcCore]
        rw [if_neg (not_lt.mpr k1.le), if_pos ⟨k1.le, k2⟩]
      · funext k
        simp only [hllcJac, if_neg nl, if_pos pm]
        by_cases hik : i = k
        · subst hik; simp [delta] <;> ring
        · have hki : ¬ k = i := fun h => hik h.symm
          simp [delta, hik, hki, Pi.single_apply] <;> ring
  · have el : ∀ᶠ v in nhds ul, 0 < slOf G v ur n := hsl.continuousAt.eventually (lt_mem_nhds l0)
    refine ((hE).congr_of_eventuallyEq ?_).congr ?_
    · filter_upwards [hrev, el] with v hv k1
      rw [eulerFlux_eq hv]
      simp only [hllc, hllcCore]
      rw [if_pos k1]
    · funext k
      simp only [hllcJac, if_pos l0]
      try simp

theorem hasGrad_hllc_right (hl : Adm G ul) (hr : Adm G ur) (n : V2) (ht : NoTie G ul ur n) (i : Fin 4) :
    HasGrad (fun v => hllc G ul v n i) ((hllcJac G ul ur n).dfdr i) ur := by
  have hd := (den_pos (n := n) hl hr).ne'
  have hA := C18_roe_averages_right hl hr n
  have hv := hasGrad_varsVn hr.rho' n
  have hp := hasGrad_varsP (G := G) hr.rho'
  have hc := hasGrad_c hr
  have hE := C03_eulerFlux G ur n hr.rho' i
  have hsl : HasGrad (fun v => slOf G ul v n) _ ur := hasGrad_pick_min (HasGrad.const (Gas.varsVn ul n - cSide G ul)) (hA.vn.sub hA.c) ht.l
  have hsr : HasGrad (fun v => srOf G ul v n) _ ur := hasGrad_pick_max (hv.add hc) (hA.vn.add hA.c) ht.r
  have hsm : HasGrad (fun v => smOf G ul v n) _ ur := hasGrad_contact_right (ul 0) (Gas.varsVn ul n) (G.varsP ul) hv hp hsl hsr hd
  have hrev : ∀ᶠ v in nhds ur, v 0 ≠ 0 := (HasGrad.coord 0 (u := ur)).continuousAt.eventually_ne hr.rho'
  rcases lt_or_gt_of_ne ht.sl with l0 | l0
  · have el : ∀ᶠ v in nhds ur, slOf G ul v n < 0 := hsl.continuousAt.eventually (gt_mem_nhds l0)
    have nl : ¬ slOf G ul ur n > 0 := not_lt.mpr l0.le
    rcases lt_or_gt_of_ne ht.sm with m0 | m0
    · have em : ∀ᶠ v in nhds ur, smOf G ul v n < 0 := hsm.continuousAt.eventually (gt_mem_nhds m0)
      have nm : ¬ (slOf G ul ur n ≤ 0 ∧ smOf G ul ur n > 0) := fun h => by linarith [h.2]
      rcases lt_or_gt_of_ne ht.sr with r0 | r0
      · have er : ∀ᶠ v in nhds ur, srOf G ul v n < 0 := hsr.continuousAt.eventually (gt_mem_nhds r0)
        have nr : ¬ (smOf G ul ur n ≤ 0 ∧ srOf G ul ur n ≥ 0) := fun h => by linarith [h.2]
        refine ((hE).congr_of_eventuallyEq ?_).congr ?_
        · filter_upwards [hrev, el, em, er] with v hv k1 k2 k3
          rw [eulerFlux_eq hv]
          simp only [hllc, hllcCore]
          rw [if_neg (not_lt.mpr k1.le), if_neg (fun h => absurd h.2 (not_lt.mpr k2.le)),
            if_neg (fun h => absurd h.2 (not_le.mpr k3))]
        · funext k
          simp only [hllcJac, if_neg nl, if_neg nm, if_neg nr]
          try simp
      · have er : ∀ᶠ v in nhds ur, 0 < srOf G ul v n := hsr.continuousAt.eventually (lt_mem_nhds r0)
        have pr : smOf G ul ur n ≤ 0 ∧ srOf G ul ur n ≥ 0 := ⟨m0.le, r0.le⟩
        have hst := hasGrad_star_own n hv hp hsr hsm (by linarith) i
        have hF := (hE).add (hsr.mul (hst.sub (HasGrad.coord i)))
        refine (hF.congr_of_eventuallyEq ?_).congr ?_
        · filter_upwards [hrev, el, em, er] with v hv k1 k2 k3
          rw [eulerFlux_eq hv]
          simp only [hllc, hllcCore]
          rw [if_neg (not_lt.mpr k1.le), if_neg (fun h => absurd h.2 (not_lt.mpr k2.le)),
            if_pos ⟨k2.le, k3.le⟩]
        · funext k
          simp only [hllcJac, if_neg nl, if_neg nm, if_pos pr]
          by_cases hik : i = k
          · subst hik; simp [delta] <;> ring
          · have hki : ¬ k = i := fun h => hik h.symm
            simp [delta, hik, hki, Pi.single_apply] <;> ring
    · have em : ∀ᶠ v in nhds ur, 0 < smOf G ul v n := hsm.continuousAt.eventually (lt_mem_nhds m0)
      have pm : slOf G ul ur n ≤ 0 ∧ smOf G ul ur n > 0 := ⟨l0.le, m0⟩
      have hst := hasGrad_star_other ul n (Gas.varsVn ul n) (G.varsP ul) hsl hsm (by linarith) i
      have hF := (HasGrad.const (G.eulerFlux ul n i)).add (hsl.mul (hst.sub (HasGrad.const (ul i))))
      refine (hF.congr_of_eventuallyEq ?_).congr ?_
      · filter_upwards [hrev, el, em] with v hv k1 k2
        rw [eulerFlux_eq hl.rho']
        simp only [hllc, hllcCore]
        rw [if_neg (not_lt.mpr k1.le), if_pos ⟨k1.le, k2⟩]
      · funext k
        simp only [hllcJac, if_neg nl, if_pos pm]
        by_cases hik : i = k
        · subst hik; simp [delta] <;> ring
        · have hki : ¬ k = i := fun h => hik h.symm
          simp [delta, hik, hki, Pi.single_apply] <;> ring
  · have el : ∀ᶠ v in nhds ur, 0 < slOf G ul v n := hsl.continuousAt.eventually (lt_mem_nhds l0)
    refine ((HasGrad.const (G.eulerFlux ul n i)).congr_of_eventuallyEq ?_).congr ?_
    · filter_upwards [hrev, el] with v hv k1
      rw [eulerFlux_eq hl.rho']
      simp only [hllc, hllcCore]
      rw [if_pos k1]
    · funext k
      simp only [hllcJac, if_pos l0]
      try simp

/-- C18: the HLLC Jacobian is exact wherever no switch is exactly at its threshold. -/
theorem C18_hllc_exact (hl : Adm G ul) (hr : Adm G ur) (n : V2) (ht : NoTie G ul ur n) :
    IsFluxJac (fun a b => hllc G a b n) (hllcJac G ul ur n) ul ur :=
  fun i => ⟨hasGrad_hllc_left hl hr n ht i, hasGrad_hllc_right hl hr n ht i⟩

/-- Left state of a subsonic example. -/
noncomputable def uH0 : St := ![7/5, 0, 0, 5/2]
/-- Right state of a subsonic example. -/
noncomputable def uH1 : St := ![7/5, 7/10, 0, 107/40]

/-- Concrete case, subsonic with the left star state in use. -/
example : Adm air uH0 ∧ Adm air uH1 ∧ NoTie air uH0 uH1 ![1, 0] ∧
    slOf air uH0 uH1 ![1, 0] < 0 ∧ 0 < smOf air uH0 uH1 ![1, 0] := by
  have a0 : Adm air uH0 := ⟨by norm_num [air], by norm_num [uH0], by
    simp [Gas.pressure, Gas.pressureOfInternal, air, uH0, dot, mom]; norm_num⟩
  have a1 : Adm air uH1 := ⟨by norm_num [air], by norm_num [uH1], by
    simp [Gas.pressure, Gas.pressureOfInternal, air, uH1, dot, mom]; norm_num⟩
  have p0 : air.varsP uH0 = 1 := by simp [Gas.varsP, Gas.vel, dot, air, uH0]; norm_num
  have p1 : air.varsP uH1 = 1 := by simp [Gas.varsP, Gas.vel, dot, air, uH1]; norm_num
  have c0 : cSide air uH0 = 1 := by rw [cSide, p0]; simp [Gas.soundSpeed, air, uH0]
  have c1 : cSide air uH1 = 1 := by rw [cSide, p1]; simp [Gas.soundSpeed, air, uH1]
  have v0 : Gas.varsVn uH0 ![1, 0] = 0 := by simp [Gas.varsVn, Gas.vel, dot, uH0]
  have v1 : Gas.varsVn uH1 ![1, 0] = 1 / 2 := by simp [Gas.varsVn, Gas.vel, dot, uH1]; norm_num
  have hR : (roeOf air uH0 uH1 ![1, 0]).R = 1 := by simp [roeOf, roeAvg, uH0, uH1]
  have hvn : (roeOf air uH0 uH1 ![1, 0]).vn = 1 / 4 := by rw [roe_vn, hR, v0, v1]; norm_num
  have hcp := roe_c_pos (n := ![1, 0]) a0 a1
  have hc : (roeOf air uH0 uH1 ![1, 0]).c < 5 / 4 := by
    have h1 := roe_c_sq (n := ![1, 0]) a0 a1
    have h2 := roe_c_sq_arg (n := ![1, 0]) a0 a1
    simp only at h2
    rw [h2, hR, c0, c1] at h1
    by_contra hcon
    have h3 : (5/4 : ℝ) * (5/4) ≤ (roeOf air uH0 uH1 ![1, 0]).c * (roeOf air uH0 uH1 ![1, 0]).c :=
      mul_self_le_mul_self (by norm_num) (not_lt.mp hcon)
    rw [h1] at h3
    simp [Gas.vel, uH0, uH1, air] at h3
    norm_num at h3
  have hsl : slOf air uH0 uH1 ![1, 0] = -1 := by
    simp only [slOf, waveL, v0, c0, hvn]
    rw [if_neg (by linarith)]; norm_num
  have hsr : srOf air uH0 uH1 ![1, 0] = 3 / 2 := by
    simp only [srOf, waveR, v1, c1, hvn]
    rw [if_neg (by linarith)]; norm_num
  have hsm : smOf air uH0 uH1 ![1, 0] = 1 / 4 := by
    simp only [smOf, contact, v0, v1, p0, p1, hsl, hsr]
    norm_num [uH0, uH1]
  refine ⟨a0, a1, ⟨?_, ?_, ?_, ?_, ?_⟩, ?_, ?_⟩
  · rw [v0, c0, hvn]; intro h; linarith
  · rw [v1, c1, hvn]; intro h; linarith
  · rw [hsl]; norm_num
  · rw [hsm]; norm_num
  · rw [hsr]; norm_num
  · rw [hsl]; norm_num
  · rw [hsm]; norm_num

/-! ### Sum of the blocks at equal states -/

theorem dSm_sum (rho vn p sl sr : ℝ) (dsli dslj dsri dsrj dvn dp : St) (k : Fin 4)
    (hd : rho * (sr - vn) - rho * (sl - vn) ≠ 0) :
    dSmI rho rho vn vn p p sl sr dsli dsri dvn dp k + dSmJ rho rho vn vn p p sl sr dslj dsrj dvn dp k = dvn k := by
  have hnum : rho * vn * (sr - vn) - rho * vn * (sl - vn) + p - p = vn * (rho * (sr - vn) - rho * (sl - vn)) := by ring
  simp only [dSmI, dSmJ]
  rw [hnum]
  by_cases h : k = 0
  · subst h
    simp only [if_true]
    rw [← add_div, div_eq_iff (mul_ne_zero hd hd)]
    ring
  · simp only [h, if_false]
    rw [← add_div, div_eq_iff (mul_ne_zero hd hd)]
    ring

theorem dStar_sum (u : St) (n : V2) (vn p ss : ℝ) (dvn dp dssi dssj dsmi dsmj : St) (i k : Fin 4)
    (hss : ss ≠ vn) (hs : dsmi k + dsmj k = dvn k) :
    dStarI u n vn p ss vn dvn dp dssi dsmi i k + dStarJ u n vn p ss vn dssj dsmj i k = delta i k := by
  have h' : ss - vn ≠ 0 := sub_ne_zero.mpr hss
  have hs' : dsmi k = dvn k - dsmj k := by linarith
  fin_cases i <;> fin_cases k <;> simp [dStarI, dStarJ, dPsI, dPsJ, delta] at hs' ⊢ <;> rw [hs'] <;>
    field_simp <;> ring

/-- C18: at equal states the HLLC blocks add up to the analytical Jacobian. -/
theorem C18_hllc_sum (h : Adm G u) (n : V2) : SumsTo (hllcJac G u u n) (G.dEulerFlux u n) := by
  have h1 := sl_lt_vn (ur := u) (n := n) h
  have h2 := vn_lt_sr (ul := u) (n := n) h
  have hd := (den_pos (n := n) h h).ne'
  intro i k
  simp only [hllcJac, sm_self h, star_self h1.ne, star_self h2.ne']
  by_cases k1 : slOf G u u n > 0
  · simp only [if_pos k1]; ring
  by_cases k2 : slOf G u u n ≤ 0 ∧ Gas.varsVn u n > 0
  · simp only [if_neg k1, if_pos k2, sub_self, mul_zero, zero_add, mul_neg, mul_one, neg_neg]
    have key : ∀ A s a b : ℝ, a + b = delta i k → A + s * (a - delta i k) + s * b = A := by
      intro A s a b hab; rw [← hab]; ring
    exact key _ _ _ _ (dStar_sum _ _ _ _ _ _ _ _ _ _ _ _ _ h1.ne (dSm_sum _ _ _ _ _ _ _ _ _ _ _ _ hd))
  by_cases k3 : Gas.varsVn u n ≤ 0 ∧ srOf G u u n ≥ 0
  · simp only [if_neg k1, if_neg k2, if_pos k3, sub_self, mul_zero, zero_add, mul_neg, mul_one, neg_neg]
    have key : ∀ A s a b : ℝ, a + b = delta i k → s * b + (A + s * (a - delta i k)) = A := by
      intro A s a b hab; rw [← hab]; ring
    exact key _ _ _ _ (dStar_sum _ _ _ _ _ _ _ _ _ _ _ _ _ h2.ne' (by
      rw [add_comm]; exact dSm_sum _ _ _ _ _ _ _ _ _ _ _ _ hd))
  · simp only [if_neg k1, if_neg k2, if_neg k3]; ring

end Flux
end FVENS
