import Verif.Flux.AusmKink
import Verif.Flux.JacHllc

/-!
# The HLLC flux at a stationary contact (C18)

`HLLCFlux::get_flux`, src/spatial/anumericalflux.cpp:1176-1228, selects a star state by the sign of the
contact speed; where that is zero the mass flux has a derivative only if the densities agree.
-/

namespace FVENS
namespace Flux

variable {G : Gas} {ul ur : St} {n : V2}

/-- C18: at a stationary contact (no normal velocity, equal pressures) at which neither signal speed is at its
own switch, the mass flux of HLLC has a derivative in the left state exactly if the densities are equal. -/
theorem C18_hllc_contact_iff (hl : Adm G ul) (hr : Adm G ur)
    (vl : Gas.varsVn ul n = 0) (vr : Gas.varsVn ur n = 0) (hp : G.varsP ul = G.varsP ur)
    (tl : Gas.varsVn ul n - cSide G ul ≠ (roeOf G ul ur n).vn - (roeOf G ul ur n).c)
    (tr : Gas.varsVn ur n + cSide G ur ≠ (roeOf G ul ur n).vn + (roeOf G ul ur n).c) :
    (∃ d, HasGrad (fun v => hllc G v ur n 0) d ul) ↔ ul 0 = ur 0 := by
  have hd := (den_pos (n := n) hl hr).ne'
  have hA := C18_roe_averages_left hl hr n
  have hv := hasGrad_varsVn hl.rho' n
  have hpg := hasGrad_varsP (G := G) hl.rho'
  have hc := hasGrad_c hl
  have l0 := sl_lt_vn (ur := ur) (n := n) hl
  have r0 := vn_lt_sr (ul := ul) (n := n) hr
  rw [vl] at l0
  rw [vr] at r0
  have hsl : HasGrad (fun v => slOf G v ur n) _ ul := hasGrad_pick_min (hv.sub hc) (hA.vn.sub hA.c) tl
  have hsr : HasGrad (fun v => srOf G v ur n) _ ul := hasGrad_pick_max (HasGrad.const (Gas.varsVn ur n + cSide G ur)) (hA.vn.add hA.c) tr
  have hsm : HasGrad (fun v => smOf G v ur n) _ ul := hasGrad_contact_left (ur 0) (Gas.varsVn ur n) (G.varsP ur) hv hpg hsl hsr hd
  have sm0 : smOf G ul ur n = 0 := by simp [smOf, contact, vl, vr, hp]
  -- the contact speed rises with the energy of the left state
  have hne : ∀ a b : St, dSmI (ul 0) (ur 0) (Gas.varsVn ul n) (Gas.varsVn ur n) (G.varsP ul) (G.varsP ur) (slOf G ul ur n) (srOf G ul ur n)
      a b (Gas.dVarsVn ul n) (G.dPressure ul) ≠ 0 := fun a b e => by
    have e3 := congrFun e 3
    have q3 : ∀ a b c d : ℝ, (![a, b, c, d] : St) 3 = d := fun _ _ _ _ => rfl
    have z : Gas.dVarsVn ul n 3 = 0 := by simp [Gas.dVarsVn, Gas.dVelRow]
    have p3 : G.dPressure ul 3 = G.g - 1 := by simp only [Gas.dPressure, q3]
    rw [vl, vr] at hd
    simp only [dSmI, show (3 : Fin 4) ≠ 0 by decide, if_false, vl, vr, z, p3, hp, Pi.zero_apply, mul_zero, zero_mul, sub_zero, add_zero, zero_add, sub_self] at e3
    simp only [sub_zero] at hd
    rcases div_eq_zero_iff.1 e3 with h | h
    · rcases mul_eq_zero.1 h with h | h
      · linarith [hl.g1]
      · exact hd h
    · exact hd (mul_self_eq_zero.1 h)
  have hSl := hasGrad_star_own n hv hpg hsl hsm (by rw [sm0, sub_zero]; exact l0.ne) 0
  have hSr := hasGrad_star_other ur n (Gas.varsVn ur n) (G.varsP ur) hsr hsm (by rw [sm0, sub_zero]; exact r0.ne') 0
  have hS := (hsm.mul (hSl.add hSr)).cmul (1 / 2)
  have hD := hSl.sub hSr
  have e0 : ∀ (w : St) (vn p ss sm : ℝ), star w n vn p ss sm 0 = w 0 * (ss - vn) / (ss - sm) := fun _ _ _ _ _ => rfl
  have hfl : ∀ (w : St) (vn p : ℝ), Gas.dirFlux w n vn p 0 = w 0 * vn := fun w vn p => by
    simp [Gas.dirFlux]; try ring
  have hrow : (fun v => hllc G v ur n 0) =ᶠ[nhds ul] fun v =>
      1 / 2 * (smOf G v ur n * (star v n (Gas.varsVn v n) (G.varsP v) (slOf G v ur n) (smOf G v ur n) 0
        + star ur n (Gas.varsVn ur n) (G.varsP ur) (srOf G v ur n) (smOf G v ur n) 0))
      + 1 / 2 * (|smOf G v ur n| * (star v n (Gas.varsVn v n) (G.varsP v) (slOf G v ur n) (smOf G v ur n) 0
        - star ur n (Gas.varsVn ur n) (G.varsP ur) (srOf G v ur n) (smOf G v ur n) 0)) := by
    have a1 : ∀ᶠ v in nhds ul, slOf G v ur n < 0 := hsl.continuousAt.eventually (gt_mem_nhds l0)
    have a2 : ∀ᶠ v in nhds ul, 0 < srOf G v ur n := hsr.continuousAt.eventually (lt_mem_nhds r0)
    have a3 : ∀ᶠ v in nhds ul, slOf G v ur n < smOf G v ur n :=
      hsl.continuousAt.eventually_lt hsm.continuousAt (by rw [sm0]; exact l0)
    have a4 : ∀ᶠ v in nhds ul, smOf G v ur n < srOf G v ur n :=
      hsm.continuousAt.eventually_lt hsr.continuousAt (by rw [sm0]; exact r0)
    filter_upwards [a1, a2, a3, a4] with v k1 k2 k3 k4
    have d1 : slOf G v ur n - smOf G v ur n ≠ 0 := by linarith
    have d2 : srOf G v ur n - smOf G v ur n ≠ 0 := by linarith
    simp only [hllc, hllcCore]
    rw [if_neg (not_lt.mpr k1.le)]
    by_cases hs : 0 < smOf G v ur n
    · rw [if_pos ⟨k1.le, hs⟩, abs_of_pos hs]
      simp only [e0, hfl]
      field_simp
      ring
    · rw [if_neg (fun h => hs h.2), if_pos ⟨not_lt.1 hs, k2.le⟩, abs_of_nonpos (not_lt.1 hs)]
      simp only [e0, hfl]
      field_simp
      ring
  have hval : star ul n (Gas.varsVn ul n) (G.varsP ul) (slOf G ul ur n) (smOf G ul ur n) 0
      - star ur n (Gas.varsVn ur n) (G.varsP ur) (srOf G ul ur n) (smOf G ul ur n) 0 = ul 0 - ur 0 := by
    rw [e0, e0, sm0, vl, vr, sub_zero, sub_zero, mul_div_assoc, mul_div_assoc, div_self l0.ne, div_self r0.ne', mul_one, mul_one]
  have key := abs_mul_grad_iff hsm sm0 (hne _ _) hD
  rw [hval, sub_eq_zero] at key
  rw [← key]
  constructor
  · rintro ⟨d, hd'⟩
    exact ⟨_, ((hd'.sub hS).cmul 2).congr_of_eventuallyEq (hrow.mono fun v hv' => by
      beta_reduce at hv' ⊢; rw [hv']; ring)⟩
  · rintro ⟨d, hd'⟩
    exact ⟨_, (hS.add (hd'.cmul (1 / 2))).congr_of_eventuallyEq (hrow.mono fun v hv' => by
      beta_reduce at hv' ⊢; rw [hv'])⟩

/-- C18: at the contact between gas of density one and gas of density four at rest at the same pressure the
HLLC flux has no derivative. -/
theorem C18_hllc_switch_refuted :
    ∃ (ul ur : St) (n : V2), Adm air ul ∧ Adm air ur ∧ n 0 ^ 2 + n 1 ^ 2 = 1 ∧
      ∀ J, ¬ IsFluxJac (fun a b => hllc air a b n) J ul ur := by
  have h1 := still_adm (r := 1) one_pos
  have h4 := still_adm (r := 4) (by norm_num)
  have c1 := h1.c_sq
  have c4 := h4.c_sq
  have p1 : ∀ r, air.varsP (still r) = 1 := fun r => by
    simp [Gas.varsP, still, air, dot, Gas.vel]
    norm_num
  rw [p1, show still 1 0 = 1 from rfl] at c1
  rw [p1, show still 4 0 = 4 from rfl] at c4
  have hg : air.g = 7 / 5 := rfl
  rw [hg] at c1 c4
  have hR : (roeOf air (still 1) (still 4) ![1, 0]).R = 2 := by
    simp only [roeOf, roeAvg, show still 1 0 = 1 from rfl, show still 4 0 = 4 from rfl]
    rw [show (4 : ℝ) / 1 = 2 ^ 2 by norm_num, Real.sqrt_sq (by norm_num)]
  have hvn : (roeOf air (still 1) (still 4) ![1, 0]).vn = 0 := by rw [roe_vn, still_vn, still_vn]; simp
  have hcp := roe_c_pos (n := ![1, 0]) h1 h4
  have hc : (roeOf air (still 1) (still 4) ![1, 0]).c * (roeOf air (still 1) (still 4) ![1, 0]).c = 7 / 10 := by
    have a := roe_c_sq (n := ![1, 0]) h1 h4
    have b := roe_c_sq_arg (n := ![1, 0]) h1 h4
    simp only at b
    rw [b, hR] at a
    rw [a]
    simp [still, Gas.vel] at c1 c4 ⊢
    nlinarith
  refine ⟨still 1, still 4, ![1, 0], h1, h4, by simp, fun J hJ => ?_⟩
  have := (C18_hllc_contact_iff h1 h4 (still_vn _ _) (still_vn _ _) (by rw [p1, p1])
    (by rw [still_vn, hvn]; intro e; nlinarith [h1.c_pos]) (by rw [still_vn, hvn]; intro e; nlinarith [h4.c_pos])).1 ⟨_, (hJ 0).1⟩
  simp [still] at this

end Flux
end FVENS
