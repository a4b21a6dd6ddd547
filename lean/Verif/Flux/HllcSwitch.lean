import Verif.Flux.HllcKink
import Verif.Flux.Upwind

/-!
# The HLLC flux where the contact speed vanishes (C18)

`HLLCFlux::get_flux`, src/spatial/anumericalflux.cpp:1176-1228, at any two states, moving or not, between which the contact stands still.
-/

namespace FVENS
namespace Flux

variable {G : Gas} {u ul ur : St} {n : V2}

/-- Where a function vanishes together with its gradient, its modulus times another one has a gradient. -/
theorem abs_mul_flat {g h : St → ℝ} {h' u : St} (hg : HasGrad g 0 u) (h0 : g u = 0) (hh : HasGrad h h' u) : ∃ d, HasGrad (fun v => |g v| * h v) d u := by
  have e : row (0 : St) = 0 := by ext x; simp [row_apply]
  have hg' : HasFDerivAt g (0 : St →L[ℝ] ℝ) u := by rw [← e]; exact hg
  have ha : HasGrad (fun v => |g v|) 0 u := by
    unfold HasGrad
    rw [e]
    rw [hasFDerivAt_iff_isLittleO] at hg' ⊢
    simp only [h0, abs_zero, sub_zero, zero_apply] at hg' ⊢
    exact hg'.abs_left
  exact ⟨_, ha.mul hh⟩

/-- C18: where the contact between two states stands still, both signal speeds away from their own switches, the mass flux of HLLC has a derivative in the left state exactly if the densities
on the two sides of the contact agree or the contact speed has zero derivative. -/
theorem C18_hllc_switch_iff (hl : Adm G ul) (hr : Adm G ur)
    (tl : Gas.varsVn ul n - cSide G ul ≠ (roeOf G ul ur n).vn - (roeOf G ul ur n).c)
    (tr : Gas.varsVn ur n + cSide G ur ≠ (roeOf G ul ur n).vn + (roeOf G ul ur n).c) (sm0 : smOf G ul ur n = 0) (l0 : slOf G ul ur n < 0) (r0 : 0 < srOf G ul ur n) :
    (∃ d, HasGrad (fun v => hllc G v ur n 0) d ul) ↔
      ul 0 * (slOf G ul ur n - Gas.varsVn ul n) / slOf G ul ur n = ur 0 * (srOf G ul ur n - Gas.varsVn ur n) / srOf G ul ur n ∨ HasGrad (fun v => smOf G v ur n) 0 ul := by
  have hd := (den_pos (n := n) hl hr).ne'
  have hA := C18_roe_averages_left hl hr n
  have hv := hasGrad_varsVn hl.rho' n
  have hpg := hasGrad_varsP (G := G) hl.rho'
  have hc := hasGrad_c hl
  have hsl : HasGrad (fun v => slOf G v ur n) _ ul := hasGrad_pick_min (hv.sub hc) (hA.vn.sub hA.c) tl
  have hsr : HasGrad (fun v => srOf G v ur n) _ ul := hasGrad_pick_max (HasGrad.const (Gas.varsVn ur n + cSide G ur)) (hA.vn.add hA.c) tr
  have hsm : HasGrad (fun v => smOf G v ur n) _ ul := hasGrad_contact_left (ur 0) (Gas.varsVn ur n) (G.varsP ur) hv hpg hsl hsr hd
  have hSl := hasGrad_star_own n hv hpg hsl hsm (by rw [sm0, sub_zero]; exact l0.ne) 0
  have hSr := hasGrad_star_other ur n (Gas.varsVn ur n) (G.varsP ur) hsr hsm (by rw [sm0, sub_zero]; exact r0.ne') 0
  have hS := (hsm.mul (hSl.add hSr)).cmul (1 / 2)
  have hD := hSl.sub hSr
  have e0 : ∀ (w : St) (vn p ss sm : ℝ), star w n vn p ss sm 0 = w 0 * (ss - vn) / (ss - sm) := fun _ _ _ _ _ => rfl
  have hfl : ∀ (w : St) (vn p : ℝ), Gas.dirFlux w n vn p 0 = w 0 * vn := fun w vn p => by
    simp [Gas.dirFlux]; try ring
  have hrow : (fun v => hllc G v ur n 0) =ᶠ[nhds ul] fun v =>
      1 / 2 * (smOf G v ur n * (star v n (Gas.varsVn v n) (G.varsP v) (slOf G v ur n) (smOf G v ur n) 0
        + star ur n (Gas.varsVn ur n) (G.varsP ur) (srOf G v ur n) (smOf G v ur n) 0))
      + 1 / 2 * (|smOf G v ur n| * (star v n (Gas.varsVn v n) (G.varsP v) (slOf G v ur n) (smOf G v ur n) 0
        - star ur n (Gas.varsVn ur n) (G.varsP ur) (srOf G v ur n) (smOf G v ur n) 0)) := by
    have a1 : ∀ᶠ v in nhds ul, slOf G v ur n < 0 := hsl.continuousAt.eventually (gt_mem_nhds l0)
    have a2 : ∀ᶠ v in nhds ul, 0 < srOf G v ur n := hsr.continuousAt.eventually (lt_mem_nhds r0)
    have a3 : ∀ᶠ v in nhds ul, slOf G v ur n < smOf G v ur n :=
      hsl.continuousAt.eventually_lt hsm.continuousAt (by rw [sm0]; exact l0)
    have a4 : ∀ᶠ v in nhds ul, smOf G v ur n < srOf G v ur n :=
      hsm.continuousAt.eventually_lt hsr.continuousAt (by rw [sm0]; exact r0)
    filter_upwards [a1, a2, a3, a4] with v k1 k2 k3 k4
    have d1 : slOf G v ur n - smOf G v ur n ≠ 0 := by linarith
    have d2 : srOf G v ur n - smOf G v ur n ≠ 0 := by linarith
    simp only [hllc, hllcCore]
    rw [if_neg (not_lt.mpr k1.le)]
    by_cases hs : 0 < smOf G v ur n
    · rw [if_pos ⟨k1.le, hs⟩, abs_of_pos hs]
      simp only [e0, hfl]
      field_simp
      ring
    · rw [if_neg (fun h => hs h.2), if_pos ⟨not_lt.1 hs, k2.le⟩, abs_of_nonpos (not_lt.1 hs)]
      simp only [e0, hfl]
      field_simp
      ring
  have hval : star ul n (Gas.varsVn ul n) (G.varsP ul) (slOf G ul ur n) (smOf G ul ur n) 0
      - star ur n (Gas.varsVn ur n) (G.varsP ur) (srOf G ul ur n) (smOf G ul ur n) 0 =
        ul 0 * (slOf G ul ur n - Gas.varsVn ul n) / slOf G ul ur n - ur 0 * (srOf G ul ur n - Gas.varsVn ur n) / srOf G ul ur n := by
    rw [e0, e0, sm0, sub_zero, sub_zero]
  have back : (∃ d, HasGrad (fun v => |smOf G v ur n| * (star v n (Gas.varsVn v n) (G.varsP v) (slOf G v ur n) (smOf G v ur n) 0
      - star ur n (Gas.varsVn ur n) (G.varsP ur) (srOf G v ur n) (smOf G v ur n) 0)) d ul) ↔ ∃ d, HasGrad (fun v => hllc G v ur n 0) d ul := by
    constructor
    · rintro ⟨d, hd'⟩
      exact ⟨_, (hS.add (hd'.cmul (1 / 2))).congr_of_eventuallyEq (hrow.mono fun v hv' => by
        beta_reduce at hv' ⊢; rw [hv'])⟩
    · rintro ⟨d, hd'⟩
      exact ⟨_, ((hd'.sub hS).cmul 2).congr_of_eventuallyEq (hrow.mono fun v hv' => by
        beta_reduce at hv' ⊢; rw [hv']; ring)⟩
  rw [← back]
  constructor
  · intro hex
    by_cases hz : HasGrad (fun v => smOf G v ur n) 0 ul
    · exact Or.inr hz
    · refine Or.inl (sub_eq_zero.1 ?_)
      rw [← hval]
      exact (abs_mul_grad_iff hsm sm0 (fun e => hz (by rw [← e]; exact hsm)) hD).1 hex
  · rintro (he | hz)
    · by_cases hz : HasGrad (fun v => smOf G v ur n) 0 ul
      · exact abs_mul_flat hz sm0 hD
      · exact (abs_mul_grad_iff hsm sm0 (fun e => hz (by rw [← e]; exact hsm)) hD).2 (hval.trans (sub_eq_zero.2 he))
    · exact abs_mul_flat hz sm0 hD

/-- C18: at a slip wall that gas moves towards or away from, the mass flux of HLLC has a derivative in the state of the gas, the ghost state held fixed, although the contact stands still there. -/
theorem C18_hllc_wall (hn : n 0 * n 0 + n 1 * n 1 = 1) (h : Adm G u) (hg : G.g ≤ 3) (hv : Gas.varsVn u n ≠ 0) : ∃ d, HasGrad (fun v => hllc G v (BC.slip u n) n 0) d u := by
  have hr := h.rho'
  have hs := slip_adm hn h
  have h1 := slip_vn hn hr
  have h2 := slip_p (G := G) hn hr
  have h3 := slip_c (G := G) hn hr
  have h4 := slip_sr (G := G) hn hr
  have h5 := slip_sl_neg hn h
  have hv0 := slip_roe_vn (G := G) hn hr
  have hcp := roe_c_pos (n := n) h hs
  have hc := h.c_pos
  have hcc : (roeOf G u (BC.slip u n) n).c * (roeOf G u (BC.slip u n) n).c = cSide G u * cSide G u + (G.g - 1) / 2 * Gas.varsVn u n ^ 2 := by
    have b := roe_c_sq_arg (n := n) h hs
    simp only at b
    rw [roe_c_sq h hs, b, slip_R hr, h3, slip_vel0 hr, slip_vel1 hr]
    linear_combination ((G.g - 1) / 2 * Gas.varsVn u n ^ 2) * hn
  have ht : Gas.varsVn u n - cSide G u ≠ -(roeOf G u (BC.slip u n) n).c := fun e => by
    have e1 : (roeOf G u (BC.slip u n) n).c = cSide G u - Gas.varsVn u n := by linarith
    rw [e1] at hcc hcp
    have hg1 := h.g1
    have e2 : Gas.varsVn u n * ((3 - G.g) / 2 * Gas.varsVn u n - 2 * cSide G u) = 0 := by linear_combination hcc
    have e3 := (mul_eq_zero.1 e2).resolve_left hv
    rcases lt_or_gt_of_ne hv with q | q
    · nlinarith
    · nlinarith
  have e : smOf G u (BC.slip u n) n = 0 := by
    simp only [smOf, contact, h4, h1, h2, slip_0]
    refine div_eq_zero_iff.2 (Or.inl ?_)
    ring
  refine (C18_hllc_switch_iff h hs (by rw [hv0, zero_sub]; exact ht) (by rw [h1, h3, hv0, zero_add]; intro q; exact ht (by linarith)) e h5 (by rw [h4]; linarith)).2 (Or.inl ?_)
  rw [h4, h1, slip_0]
  have := h5.ne
  field_simp
  ring

/-- Air of density one and pressure one that moves towards a wall. -/
example : ∃ d, HasGrad (fun v => hllc air v (BC.slip ![1, 1, 0, 3] ![1, 0]) ![1, 0] 0) d ![1, 1, 0, 3] :=
  C18_hllc_wall (by norm_num) ⟨by norm_num [air], by norm_num, by
    have q2 : (![1, 1, 0, 3] : St) 2 = 0 := rfl
    have q3 : (![1, 1, 0, 3] : St) 3 = 3 := rfl
    norm_num [air, Gas.pressure, Gas.pressureOfInternal, dot, mom, q2, q3]⟩ (by norm_num [air])
    (by norm_num [Gas.varsVn, dot, Gas.vel])

end Flux
end FVENS
