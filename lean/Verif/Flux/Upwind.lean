import Verif.Flux.Order

/-!
# Properties C17 (supersonic upwinding), C20 (stationary contacts), C09 (slip wall)
-/

namespace FVENS
namespace Flux
variable {G : Gas} {u ul ur : St} {n : V2}

/-! ## C17 -/

theorem C17_vanLeer (hl : Adm G ul) (_hr : Adm G ur) (n : V2)
    (ml : 1 < Gas.varsVn ul n / cSide G ul) (mr : 1 < Gas.varsVn ur n / cSide G ur) :
    vanLeer G ul ur n = G.eulerFlux ul n := by
  rw [eulerFlux_eq hl.rho']
  have a1 : ¬ Gas.varsVn ul n / cSide G ul < -1 := by linarith
  funext i
  simp only [vanLeer, vlPlus, vlMinus, a1, ml, mr, if_true, if_false, gt_iff_lt]
  simp

theorem C17_ausm (hl : Adm G ul) (_hr : Adm G ur) (n : V2)
    (ml : 1 < Gas.varsVn ul n / cSide G ul) (mr : 1 < Gas.varsVn ur n / cSide G ur) :
    ausm G ul ur n = G.eulerFlux ul n := by
  rw [eulerFlux_eq hl.rho']
  have hc := hl.c_pos
  have a1 : ¬ |Gas.varsVn ul n / cSide G ul| ≤ 1 := by
    rw [not_le]; exact lt_of_lt_of_le ml (le_abs_self _)
  have a2 : ¬ |Gas.varsVn ur n / cSide G ur| ≤ 1 := by
    rw [not_le]; exact lt_of_lt_of_le mr (le_abs_self _)
  have a3 : ¬ Gas.varsVn ul n / cSide G ul < -1 := by linarith
  have a4 : ¬ Gas.varsVn ur n / cSide G ur < -1 := by linarith
  simp only [ausm, ausmML, ausmMR, ausmPL, ausmPR, a1, a2, a3, a4, if_false, add_zero]
  have hM : 0 < Gas.varsVn ul n / cSide G ul := by linarith
  obtain ⟨M, hMd⟩ : ∃ M, M = Gas.varsVn ul n / cSide G ul := ⟨_, rfl⟩
  have hv : Gas.varsVn ul n = M * cSide G ul := by rw [hMd]; field_simp
  rw [← hMd] at hM ⊢
  rw [hv]
  funext i
  fin_cases i <;> simp [ausmCore, Gas.dirFlux, abs_of_pos hM] <;> ring

/-- AUSM+: both normal velocities exceed the critical speed of their side. -/
theorem C17_ausmPlus (hl : Adm G ul) (hr : Adm G ur) (n : V2)
    (ml : critC G.g (cSide G ul) (dot (Gas.vel ul) (Gas.vel ul)) < Gas.varsVn ul n)
    (mr : critC G.g (cSide G ur) (dot (Gas.vel ur) (Gas.vel ur)) < Gas.varsVn ur n) :
    ausmPlus G ul ur n = G.eulerFlux ul n := by
  rw [eulerFlux_eq hl.rho']
  have hc := ausmpC_pos (n := n) hl hr
  have cp : ∀ {w : St}, Adm G w → 0 < critC G.g (cSide G w) (dot (Gas.vel w) (Gas.vel w)) := by
    intro w hw
    have hg : 0 < G.g - 1 := by linarith [hl.g1]
    have hg2 : 0 < G.g + 1 := by linarith [hl.g1]
    have := hw.c_pos
    have h0 : 0 ≤ dot (Gas.vel w) (Gas.vel w) := add_nonneg (mul_self_nonneg _) (mul_self_nonneg _)
    apply Real.sqrt_pos.mpr; positivity
  have cl := cp hl
  have cr := cp hr
  have b1 : ausmpCOf G ul ur n < Gas.varsVn ul n ∧ ausmpCOf G ul ur n < Gas.varsVn ur n := by
    unfold ausmpCOf ausmpC
    have n1 : ¬ critC G.g (cSide G ul) (dot (Gas.vel ul) (Gas.vel ul)) > Gas.varsVn ul n := by linarith
    have n2 : critC G.g (cSide G ur) (dot (Gas.vel ur) (Gas.vel ur)) > -Gas.varsVn ur n := by linarith
    simp only [n1, n2, if_true, if_false]
    set a := critC G.g (cSide G ul) (dot (Gas.vel ul) (Gas.vel ul))
    set b := critC G.g (cSide G ur) (dot (Gas.vel ur) (Gas.vel ur))
    have k1 : a * a / Gas.varsVn ul n < Gas.varsVn ul n := by
      rw [div_lt_iff₀ (by linarith)]; exact mul_self_lt_mul_self cl.le ml
    have k2 : b * b / b < Gas.varsVn ur n := by rwa [mul_div_assoc, div_self cr.ne', mul_one]
    constructor
    · split_ifs <;> linarith
    · split_ifs <;> linarith
  set c := ausmpCOf G ul ur n with hcd
  have ml' : 1 < Gas.varsVn ul n / c := by rw [lt_div_iff₀ hc]; linarith [b1.1]
  have mr' : 1 < Gas.varsVn ur n / c := by rw [lt_div_iff₀ hc]; linarith [b1.2]
  have a1 : ¬ |Gas.varsVn ul n / c| ≤ 1 := by
    rw [not_le]; exact lt_of_lt_of_le ml' (le_abs_self _)
  have a2 : ¬ |Gas.varsVn ur n / c| ≤ 1 := by
    rw [not_le]; exact lt_of_lt_of_le mr' (le_abs_self _)
  have a3 : ¬ Gas.varsVn ul n / c < -1 := by linarith
  have a4 : ¬ Gas.varsVn ur n / c < -1 := by linarith
  simp only [ausmPlus, ← hcd, ausmpML, ausmpMR, ausmpPL, ausmpPR, a1, a2, a3, a4, if_false, add_zero]
  have hM : 0 < Gas.varsVn ul n / c := by linarith
  obtain ⟨M, hMd⟩ : ∃ M, M = Gas.varsVn ul n / c := ⟨_, rfl⟩
  have hv : Gas.varsVn ul n = M * c := by rw [hMd]; field_simp
  rw [← hMd] at hM ⊢
  rw [hv]
  funext i
  fin_cases i <;> simp [ausmpCore, Gas.dirFlux, abs_of_pos hM] <;> ring

theorem C17_hll (hl : Adm G ul) (hr : Adm G ur) (n : V2) (h : 0 < slOf G ul ur n) :
    hll G ul ur n = G.eulerFlux ul n := by
  rw [eulerFlux_eq hl.rho']
  have h2 := sl_lt_sr (n := n) hl hr
  have hH := varsH_eq (G := G) hl.rho'
  have h3 : 0 < srOf G ul ur n := h.trans h2
  have e1 : hllT1 (slOf G ul ur n) (srOf G ul ur n) = 0 := by
    simp only [hllT1, gt_iff_lt, h, h3, if_true]; simp
  have e2 : hllT3 (slOf G ul ur n) (srOf G ul ur n) = 0 := by
    simp only [hllT3, abs_of_pos h, abs_of_pos h3]; simp; left; ring
  simp only [hll, e1, e2]
  funext i
  fin_cases i <;> simp [hllCore, Gas.dirFlux]
  rw [← hH]; ring

theorem C17_hllc (hl : Adm G ul) (n : V2) (h : 0 < slOf G ul ur n) :
    hllc G ul ur n = G.eulerFlux ul n := by
  rw [eulerFlux_eq hl.rho']
  simp only [hllc, hllcCore, gt_iff_lt, h, if_true]

/-- The condition of `C17_hll` and `C17_hllc` in terms of the two acoustic speeds. -/
theorem sl_pos_iff : 0 < slOf G ul ur n ↔
    cSide G ul < Gas.varsVn ul n ∧ (roeOf G ul ur n).c < (roeOf G ul ur n).vn := by
  unfold slOf waveL
  split_ifs with h
  · constructor
    · intro k; constructor <;> linarith
    · intro k; linarith [k.2]
  · constructor
    · intro k; constructor <;> linarith
    · intro k; linarith [k.1]

/-- Pressure in terms of total enthalpy and velocity. -/
theorem p_of_H (h : Adm G u) : G.g * G.varsP u =
    (G.g - 1) * u 0 * (G.varsH u - (Gas.vel u 0 * Gas.vel u 0 + Gas.vel u 1 * Gas.vel u 1) / 2) := by
  have h1 := varsH_eq (G := G) h.rho'
  have h2 := energy_eq h
  have hg : G.g - 1 ≠ 0 := by linarith [h.g1]
  have h3 : G.varsP u = (G.g - 1) * (u 3 - u 0 * (Gas.vel u 0 * Gas.vel u 0 + Gas.vel u 1 * Gas.vel u 1) / 2) := by
    rw [h2]; field_simp; ring
  have h4 : u 3 = u 0 * G.varsH u - G.varsP u := by linarith
  rw [h4] at h3
  linarith

/-- Roe's property: with unmodified eigenvalues of one sign the dissipation vector is the flux
difference. -/
theorem roe_property (hl : Adm G ul) (hr : Adm G ur) (n : V2) (i : Fin 4) :
    let a := roeOf G ul ur n
    let l : St := ![a.vn - a.c, a.vn, a.vn, a.vn + a.c]
    let devn := Gas.varsVn ur n - Gas.varsVn ul n
    roeADU a (roeLA a l (G.varsP ur - G.varsP ul) devn (ur 0 - ul 0)) n
      ![Gas.vel ur 0 - Gas.vel ul 0, Gas.vel ur 1 - Gas.vel ul 1] devn i
    = Gas.dirFlux ur n (Gas.varsVn ur n) (G.varsP ur) i - Gas.dirFlux ul n (Gas.varsVn ul n) (G.varsP ul) i := by
  intro a l devn
  have hc : 0 < a.c := roe_c_pos hl hr
  have hc2 : a.c * a.c = (G.g - 1) * (a.H - a.vm2 * (1 / 2)) := roe_c_sq hl hr
  have hg : G.g - 1 ≠ 0 := by linarith [hl.g1]
  have hR : 0 < a.R := roe_R_pos hl.rho hr.rho
  have hR2 : a.R * a.R * ul 0 = ur 0 := roe_R_sq hl.rho hr.rho
  have hrho : a.rho = a.R * ul 0 := rfl
  have hv0 : a.v 0 = (a.R * Gas.vel ur 0 + Gas.vel ul 0) / (a.R + 1) := rfl
  have hv1 : a.v 1 = (a.R * Gas.vel ur 1 + Gas.vel ul 1) / (a.R + 1) := rfl
  have hvn : a.vn = (a.R * Gas.varsVn ur n + Gas.varsVn ul n) / (a.R + 1) := roe_vn ul ur n
  have hH : a.H = (a.R * G.varsH ur + G.varsH ul) / (a.R + 1) := rfl
  have hvm : a.vm2 = a.v 0 * a.v 0 + a.v 1 * a.v 1 := rfl
  have hHl := varsH_eq (G := G) hl.rho'
  have hHr := varsH_eq (G := G) hr.rho'
  have m1 := mom1_eq hl.rho'
  have m2 := mom2_eq hl.rho'
  have k1 := mom1_eq hr.rho'
  have k2 := mom2_eq hr.rho'
  have pl := p_of_H hl
  have pr := p_of_H hr
  set dp := G.varsP ur - G.varsP ul with hdp
  set dr := ur 0 - ul 0 with hdr
  -- sums and differences of the acoustic strengths
  set la := roeLA a l dp devn dr with hla
  have s1 : la 0 + la 3 = a.vn * dp / (a.c * a.c) + a.rho * devn := by
    simp only [hla, roeLA, l]; simp; field_simp; ring
  have s2 : a.c * (la 3 - la 0) = dp + a.rho * a.vn * devn := by
    simp only [hla, roeLA, l]; simp; field_simp; ring
  have s3 : la 1 = a.vn * (dr - dp / (a.c * a.c)) := by simp [hla, roeLA, l]
  have s4 : la 2 = a.vn * a.rho := by simp [hla, roeLA, l]
  have hR1 : a.R + 1 ≠ 0 := by positivity
  have mass : la 0 + la 1 + la 3 = ur 0 * Gas.varsVn ur n - ul 0 * Gas.varsVn ul n := by
    have : la 0 + la 1 + la 3 = a.vn * dr + a.rho * devn := by
      rw [show la 0 + la 1 + la 3 = (la 0 + la 3) + la 1 by ring, s1, s3]; ring
    rw [this, hdr, hrho, hvn, ← hR2]; simp only [devn]; field_simp; ring
  have hrr := hl.rho'
  fin_cases i
  · simp only [roeADU, Gas.dirFlux]; simp
    rw [mass]; ring
  · simp only [roeADU, Gas.dirFlux]; simp
    have e : la 0 * (a.v 0 - a.c * n 0) + (la 1 * a.v 0 + la 2 * (Gas.vel ur 0 - Gas.vel ul 0 - devn * n 0))
        + la 3 * (a.v 0 + a.c * n 0) = a.v 0 * (la 0 + la 1 + la 3) + n 0 * (a.c * (la 3 - la 0))
        + la 2 * (Gas.vel ur 0 - Gas.vel ul 0 - devn * n 0) := by ring
    rw [e, mass, s2, s4, k1, m1, hv0, hvn, hrho, ← hR2, hdp]; field_simp; ring
  · simp only [roeADU, Gas.dirFlux]; simp
    have e : la 0 * (a.v 1 - a.c * n 1) + (la 1 * a.v 1 + la 2 * (Gas.vel ur 1 - Gas.vel ul 1 - devn * n 1))
        + la 3 * (a.v 1 + a.c * n 1) = a.v 1 * (la 0 + la 1 + la 3) + n 1 * (a.c * (la 3 - la 0))
        + la 2 * (Gas.vel ur 1 - Gas.vel ul 1 - devn * n 1) := by ring
    rw [e, mass, s2, s4, k2, m2, hv1, hvn, hrho, ← hR2, hdp]; field_simp; ring
  · simp only [roeADU, Gas.dirFlux]; simp
    have e : la 0 * (a.H - a.c * a.vn) + (la 1 * a.vm2 / 2 + la 2 * (a.v 0 * (Gas.vel ur 0 - Gas.vel ul 0)
          + a.v 1 * (Gas.vel ur 1 - Gas.vel ul 1) - a.vn * devn)) + la 3 * (a.H + a.c * a.vn)
        = a.H * (la 0 + la 3) + a.vn * (a.c * (la 3 - la 0)) + la 1 * a.vm2 / 2
          + la 2 * (a.v 0 * (Gas.vel ur 0 - Gas.vel ul 0) + a.v 1 * (Gas.vel ur 1 - Gas.vel ul 1) - a.vn * devn) := by
      ring
    have e2 : a.H * (a.vn * dp / (a.c * a.c) + a.rho * devn) + a.vn * (dp + a.rho * a.vn * devn)
        + a.vn * (dr - dp / (a.c * a.c)) * a.vm2 / 2
      = a.vn * dp * ((a.H - a.vm2 / 2) / (a.c * a.c)) + a.H * a.rho * devn + a.vn * (dp + a.rho * a.vn * devn)
        + a.vn * dr * a.vm2 / 2 := by ring
    have e3 : (a.H - a.vm2 / 2) / (a.c * a.c) = 1 / (G.g - 1) := by
      have hcc : a.c * a.c ≠ 0 := by positivity
      rw [div_eq_div_iff hcc hg, hc2]; ring
    have e4 : dp * (1 / (G.g - 1)) + dp = ur 0 * (G.varsH ur - (Gas.vel ur 0 * Gas.vel ur 0 + Gas.vel ur 1 * Gas.vel ur 1) / 2)
        - ul 0 * (G.varsH ul - (Gas.vel ul 0 * Gas.vel ul 0 + Gas.vel ul 1 * Gas.vel ul 1) / 2) := by
      have k : dp * (1 / (G.g - 1)) + dp = (G.g * dp) / (G.g - 1) := by field_simp; ring
      rw [k, div_eq_iff hg, hdp]; linear_combination pr - pl
    rw [e, s1, s2, s3, s4, e2, e3]
    have e5 : a.vn * dp * (1 / (G.g - 1)) + a.H * a.rho * devn + a.vn * (dp + a.rho * a.vn * devn)
        + a.vn * dr * a.vm2 / 2 + a.vn * a.rho * (a.v 0 * (Gas.vel ur 0 - Gas.vel ul 0)
          + a.v 1 * (Gas.vel ur 1 - Gas.vel ul 1) - a.vn * devn)
      = a.vn * (dp * (1 / (G.g - 1)) + dp) + a.H * a.rho * devn + a.vn * dr * a.vm2 / 2
        + a.vn * a.rho * (a.v 0 * (Gas.vel ur 0 - Gas.vel ul 0) + a.v 1 * (Gas.vel ur 1 - Gas.vel ul 1)) := by ring
    rw [e5, e4, ← hHl, ← hHr, hvm, hv0, hv1, hvn, hH, hrho, hdr, ← hR2]
    simp only [devn]
    field_simp
    ring

/-- Roe: all averaged waves move right by more than the entropy-fix width. -/
theorem C17_roe (hl : Adm G ul) (hr : Adm G ur) (n : V2)
    (h : fixeps * (roeOf G ul ur n).c ≤ (roeOf G ul ur n).vn - (roeOf G ul ur n).c) :
    roe G ul ur n = G.eulerFlux ul n := by
  rw [eulerFlux_eq hl.rho']
  have hp := roe_property hl hr n
  simp only at hp
  have hc : 0 < (roeOf G ul ur n).c := roe_c_pos hl hr
  have hf : (0:ℝ) < fixeps := by norm_num [fixeps]
  have hfc := mul_pos hf hc
  set a := roeOf G ul ur n with ha
  have eL : roeL a = ![a.vn - a.c, a.vn, a.vn, a.vn + a.c] := by
    have hh : ∀ l : ℝ, fixeps * a.c ≤ l → harten (fixeps * a.c) |l| = l := by
      intro l hl'
      have : 0 ≤ l := by linarith
      rw [abs_of_nonneg this, harten, if_neg (not_lt.mpr hl')]
    have h1 := hh (a.vn - a.c) h
    have h2 := hh a.vn (by linarith)
    have h3 := hh (a.vn + a.c) (by linarith)
    funext k; fin_cases k <;> simp [roeL, roeL0, h1, h2, h3]
  funext i
  simp only [roe, ← ha, eL, hp i]
  ring

/-- A supersonic pair of states, and the concrete values used in the examples below:
`ρ = 7/5`, `p = 1` (so `c = 1`), speeds 4 and 5 along `x`. -/
noncomputable def uS4 : St := ![7/5, 28/5, 0, 137/10]
/-- Second supersonic state. -/
noncomputable def uS5 : St := ![7/5, 7, 0, 20]

theorem adm_uS4 : Adm air uS4 := ⟨by norm_num [air], by norm_num [uS4], by
  simp [Gas.pressure, Gas.pressureOfInternal, air, uS4, dot, mom]; norm_num⟩
theorem adm_uS5 : Adm air uS5 := ⟨by norm_num [air], by norm_num [uS5], by
  simp [Gas.pressure, Gas.pressureOfInternal, air, uS5, dot, mom]; norm_num⟩

theorem varsP_uS4 : air.varsP uS4 = 1 := by
  simp [Gas.varsP, Gas.vel, dot, air, uS4]; norm_num
theorem varsP_uS5 : air.varsP uS5 = 1 := by
  simp [Gas.varsP, Gas.vel, dot, air, uS5]; norm_num
theorem c_uS4 : cSide air uS4 = 1 := by
  rw [cSide, varsP_uS4]; simp [Gas.soundSpeed, air, uS4]
theorem c_uS5 : cSide air uS5 = 1 := by
  rw [cSide, varsP_uS5]; simp [Gas.soundSpeed, air, uS5]
theorem vn_uS4 : Gas.varsVn uS4 ![1, 0] = 4 := by
  simp [Gas.varsVn, Gas.vel, dot, uS4]; norm_num
theorem vn_uS5 : Gas.varsVn uS5 ![1, 0] = 5 := by
  simp [Gas.varsVn, Gas.vel, dot, uS5] <;> norm_num

theorem roe_uS : (roeOf air uS4 uS5 ![1, 0]).vn = 9 / 2 ∧ (roeOf air uS4 uS5 ![1, 0]).c < 3 / 2 := by
  have h1 := roe_c_sq (n := ![1, 0]) adm_uS4 adm_uS5
  have h2 := roe_c_sq_arg (n := ![1, 0]) adm_uS4 adm_uS5
  have hR : (roeOf air uS4 uS5 ![1, 0]).R = 1 := by simp [roeOf, roeAvg, uS4, uS5]
  simp only at h2
  rw [h2, hR, c_uS4, c_uS5] at h1
  constructor
  · rw [roe_vn, hR, vn_uS4, vn_uS5]; norm_num
  · by_contra hc
    have hc := not_lt.mp hc
    have : (3/2 : ℝ) * (3/2) ≤ (roeOf air uS4 uS5 ![1, 0]).c * (roeOf air uS4 uS5 ![1, 0]).c :=
      mul_self_le_mul_self (by norm_num) hc
    rw [h1] at this
    simp [Gas.vel, uS4, uS5, air] at this
    norm_num at this

/-- Concrete cases of the hypotheses of all C17 theorems. -/
example : 1 < Gas.varsVn uS4 ![1, 0] / cSide air uS4 ∧ 1 < Gas.varsVn uS5 ![1, 0] / cSide air uS5 ∧
    0 < slOf air uS4 uS5 ![1, 0] ∧
    fixeps * (roeOf air uS4 uS5 ![1, 0]).c ≤ (roeOf air uS4 uS5 ![1, 0]).vn - (roeOf air uS4 uS5 ![1, 0]).c := by
  obtain ⟨h1, h2⟩ := roe_uS
  refine ⟨?_, ?_, ?_, ?_⟩
  · rw [vn_uS4, c_uS4]; norm_num
  · rw [vn_uS5, c_uS5]; norm_num
  · rw [sl_pos_iff, vn_uS4, c_uS4, h1]; constructor
    · norm_num
    · linarith
  · rw [h1]; norm_num [fixeps]; linarith

example : critC air.g (cSide air uS4) (dot (Gas.vel uS4) (Gas.vel uS4)) < Gas.varsVn uS4 ![1, 0] ∧
    critC air.g (cSide air uS5) (dot (Gas.vel uS5) (Gas.vel uS5)) < Gas.varsVn uS5 ![1, 0] := by
  rw [vn_uS4, vn_uS5, c_uS4, c_uS5]
  constructor
  · rw [critC, Real.sqrt_lt' (by norm_num)]; simp [dot, Gas.vel, air, uS4]; norm_num
  · rw [critC, Real.sqrt_lt' (by norm_num)]; simp [dot, Gas.vel, air, uS5]; norm_num

/-- C17 fails for the local Lax-Friedrichs flux: it is not upwind for supersonic flow. -/
theorem C17_llf_refuted : ¬ ∀ (G : Gas) (ul ur : St) (n : V2), Adm G ul → Adm G ur →
    n 0 * n 0 + n 1 * n 1 = 1 →
    1 < Gas.varsVn ul n / cSide G ul → 1 < Gas.varsVn ur n / cSide G ur →
    llf G ul ur n = G.eulerFlux ul n := by
  intro h
  have := h air uS4 uS5 ![1, 0] adm_uS4 adm_uS5 (by norm_num) (by rw [vn_uS4, c_uS4]; norm_num)
    (by rw [vn_uS5, c_uS5]; norm_num)
  have h0 := congrFun this 0
  simp only [llf, eulerFlux_eq adm_uS4.rho', eulerFlux_eq adm_uS5.rho', vn_uS4, vn_uS5] at h0
  simp [Gas.dirFlux, uS4, uS5] at h0
  norm_num at h0

/-! ## C20 -/

/-- Two states separated by a stationary contact: no normal velocity, equal pressure. -/
structure Contact (G : Gas) (ul ur : St) (n : V2) (p : ℝ) : Prop where
  vl : Gas.varsVn ul n = 0
  vr : Gas.varsVn ur n = 0
  pl : G.varsP ul = p
  pr : G.varsP ur = p

/-- Flux consisting of pressure only. -/
def pressureFlux (n : V2) (p : ℝ) : St := ![0, p * n 0, p * n 1, 0]

theorem C20_ausm {p : ℝ} (h : Contact G ul ur n p) : ausm G ul ur n = pressureFlux n p := by
  simp only [ausm, h.vl, h.vr, h.pl, h.pr, zero_div]
  have e1 : ausmML 0 + ausmMR 0 = 0 := by norm_num [ausmML, ausmMR]
  have e2 : ausmPL 0 p + ausmPR 0 p = p := by simp [ausmPL, ausmPR]; ring
  rw [e1, e2]
  funext i; fin_cases i <;> simp [ausmCore, pressureFlux]

theorem C20_ausmPlus {p : ℝ} (h : Contact G ul ur n p) : ausmPlus G ul ur n = pressureFlux n p := by
  simp only [ausmPlus, h.vl, h.vr, h.pl, h.pr, zero_div]
  have e1 : ausmpML 0 + ausmpMR 0 = 0 := by norm_num [ausmpML, ausmpMR]
  have e2 : ausmpPL 0 p + ausmpPR 0 p = p := by simp [ausmpPL, ausmpPR]; ring
  rw [e1, e2]
  funext i; fin_cases i <;> simp [ausmpCore, pressureFlux]

theorem C20_hllc {p : ℝ} (hl : Adm G ul) (hr : Adm G ur) (h : Contact G ul ur n p) :
    hllc G ul ur n = pressureFlux n p := by
  have h1 := sl_lt_vn (ur := ur) (n := n) hl
  have h2 := vn_lt_sr (ul := ul) (n := n) hr
  rw [h.vl] at h1
  rw [h.vr] at h2
  have e : smOf G ul ur n = 0 := by simp [smOf, contact, h.vl, h.vr, h.pl, h.pr]
  simp only [hllc, hllcCore, e, h.vl, h.vr, h.pl, h.pr]
  have a1 : ¬ slOf G ul ur n > 0 := by linarith
  have a2 : ¬ (slOf G ul ur n ≤ 0 ∧ (0:ℝ) > 0) := by intro k; linarith [k.2]
  have a3 : ((0:ℝ) ≤ 0 ∧ srOf G ul ur n ≥ 0) := ⟨le_refl _, h2.le⟩
  rw [if_neg a1, if_neg a2, if_pos a3, star_self h2.ne']
  funext i; fin_cases i <;> simp [Gas.dirFlux, pressureFlux]

/-- C20: AUSM, AUSM+ and HLLC keep every stationary contact. -/
theorem C20_contact_preserved {p : ℝ} (hl : Adm G ul) (hr : Adm G ur) (h : Contact G ul ur n p)
    (s : Scheme) (hs : s = .ausm ∨ s = .ausmPlus ∨ s = .hllc) : s.flux G ul ur n = pressureFlux n p := by
  rcases hs with rfl | rfl | rfl
  · exact C20_ausm h
  · exact C20_ausmPlus h
  · exact C20_hllc hl hr h

/-- Roe with the entropy fix applied to every eigenvalue diffuses a stationary contact: exact mass
flux. -/
theorem C20_roe_diffuses_contact {p : ℝ} (hl : Adm G ul) (hr : Adm G ur) (h : Contact G ul ur n p) :
    roe G ul ur n 0 = - (fixeps * (roeOf G ul ur n).c / 4) * (ur 0 - ul 0) := by
  have hc : 0 < (roeOf G ul ur n).c := roe_c_pos hl hr
  have hv : (roeOf G ul ur n).vn = 0 := by rw [roe_vn, h.vl, h.vr]; simp
  have hf : (0:ℝ) < fixeps := by norm_num [fixeps]
  have hfc := mul_pos hf hc
  have e : roeL (roeOf G ul ur n) 1 = fixeps * (roeOf G ul ur n).c / 2 := by
    simp [roeL, roeL0, hv, harten, hfc]; field_simp
  simp [roe, roeLA, roeADU, h.vl, h.vr, h.pl, h.pr, Gas.dirFlux, e]
  ring

/-- Contact with densities 1 and 4, pressure 1, tangential speeds 2 and -1. -/
noncomputable def uC1 : St := ![1, 0, 2, 9/2]
/-- Other side of the contact. -/
noncomputable def uC4 : St := ![4, 0, -4, 9/2]
theorem adm_uC1 : Adm air uC1 := ⟨by norm_num [air], by norm_num [uC1], by
  simp [Gas.pressure, Gas.pressureOfInternal, air, uC1, dot, mom]; norm_num⟩
theorem adm_uC4 : Adm air uC4 := ⟨by norm_num [air], by norm_num [uC4], by
  simp [Gas.pressure, Gas.pressureOfInternal, air, uC4, dot, mom]; norm_num⟩
theorem contact_uC : Contact air uC1 uC4 ![1, 0] 1 :=
  ⟨by simp [Gas.varsVn, Gas.vel, dot, uC1], by simp [Gas.varsVn, Gas.vel, dot, uC4],
   by simp [Gas.varsP, Gas.vel, dot, uC1, air]; norm_num,
   by simp [Gas.varsP, Gas.vel, dot, uC4, air]; norm_num⟩
example : Adm air uC1 ∧ Adm air uC4 ∧ Contact air uC1 uC4 ![1, 0] 1 :=
  ⟨adm_uC1, adm_uC4, contact_uC⟩

/-- So the Roe flux does not preserve stationary contacts. -/
theorem C20_roe_refuted : ¬ ∀ (G : Gas) (ul ur : St) (n : V2) (p : ℝ), Adm G ul → Adm G ur →
    Contact G ul ur n p → roe G ul ur n = pressureFlux n p := by
  intro h
  have h0 := congrFun (h air uC1 uC4 ![1, 0] 1 adm_uC1 adm_uC4 contact_uC) 0
  rw [C20_roe_diffuses_contact adm_uC1 adm_uC4 contact_uC] at h0
  have hc : 0 < (roeOf air uC1 uC4 ![1, 0]).c := roe_c_pos adm_uC1 adm_uC4
  have hf : (0:ℝ) < fixeps := by norm_num [fixeps]
  have := mul_pos hf hc
  simp [pressureFlux, uC1, uC4] at h0
  rcases h0 with h0 | h0
  · rcases h0 with h0 | h0
    · exact hf.ne' h0
    · exact hc.ne' h0
  · norm_num at h0

/-! ## C09 -/

/-- No mass and energy, momentum along the normal. -/
structure WallFlux (f : St) (n : V2) : Prop where
  mass : f 0 = 0
  energy : f 3 = 0
  along : ∃ q, f 1 = q * n 0 ∧ f 2 = q * n 1

section slip
variable (hn : n 0 * n 0 + n 1 * n 1 = 1)

theorem slip_0 (u : St) (n : V2) : BC.slip u n 0 = u 0 := rfl
theorem slip_3 (u : St) (n : V2) : BC.slip u n 3 = u 3 := rfl
theorem slip_vel0 (hr : u 0 ≠ 0) : Gas.vel (BC.slip u n) 0 = Gas.vel u 0 - 2 * Gas.varsVn u n * n 0 := by
  simp [Gas.vel, BC.slip, Gas.varsVn, dot, mom]; field_simp
theorem slip_vel1 (hr : u 0 ≠ 0) : Gas.vel (BC.slip u n) 1 = Gas.vel u 1 - 2 * Gas.varsVn u n * n 1 := by
  simp [Gas.vel, BC.slip, Gas.varsVn, dot, mom]; field_simp
theorem slip_1 (hr : u 0 ≠ 0) : BC.slip u n 1 = u 1 - 2 * (Gas.varsVn u n * u 0) * n 0 := by
  simp [Gas.vel, BC.slip, Gas.varsVn, dot, mom]; field_simp
theorem slip_2 (hr : u 0 ≠ 0) : BC.slip u n 2 = u 2 - 2 * (Gas.varsVn u n * u 0) * n 1 := by
  simp [Gas.vel, BC.slip, Gas.varsVn, dot, mom]; field_simp

include hn in
theorem slip_vn (hr : u 0 ≠ 0) : Gas.varsVn (BC.slip u n) n = - Gas.varsVn u n := by
  rw [varsVn_def, slip_vel0 hr, slip_vel1 hr]
  linear_combination (-2 * Gas.varsVn u n) * hn - varsVn_def u n

include hn in
theorem slip_v2 (hr : u 0 ≠ 0) : dot (Gas.vel (BC.slip u n)) (Gas.vel (BC.slip u n))
    = dot (Gas.vel u) (Gas.vel u) := by
  simp only [dot]
  rw [slip_vel0 hr, slip_vel1 hr]
  linear_combination (4 * Gas.varsVn u n * Gas.varsVn u n) * hn + 4 * Gas.varsVn u n * varsVn_def u n

include hn in
theorem slip_p (hr : u 0 ≠ 0) : G.varsP (BC.slip u n) = G.varsP u := by
  simp only [Gas.varsP, slip_v2 hn hr, slip_0, slip_3]

include hn in
theorem slip_H (hr : u 0 ≠ 0) : G.varsH (BC.slip u n) = G.varsH u := by
  simp only [Gas.varsH, slip_p hn hr, slip_0, slip_3]

include hn in
theorem slip_c (hr : u 0 ≠ 0) : cSide G (BC.slip u n) = cSide G u := by
  simp only [cSide, slip_p hn hr, slip_0]

include hn in
theorem slip_adm (h : Adm G u) : Adm G (BC.slip u n) := by
  refine ⟨h.g1, h.rho, ?_⟩
  rw [← varsP_eq (u := BC.slip u n) (by rw [slip_0]; exact h.rho'), slip_p hn h.rho']; exact h.vp

include hn in
theorem C09_llf (h : Adm G u) : WallFlux (llf G u (BC.slip u n) n) n := by
  have hr := h.rho'
  have hs := slip_adm hn h
  have h1 := slip_vn hn hr
  have h2 := slip_p (G := G) hn hr
  set e := llfEig (Gas.varsVn u n) (cSide G u) (Gas.varsVn (BC.slip u n) n) (cSide G (BC.slip u n)) with he
  rw [h1] at he
  refine ⟨?_, ?_, ⟨G.varsP u + Gas.varsVn u n * u 0 * (Gas.varsVn u n + e), ?_, ?_⟩⟩ <;>
    simp only [llf, eulerFlux_eq hr, eulerFlux_eq hs.rho', h1, h2, ← he] <;>
    simp [Gas.dirFlux, slip_0, slip_3, slip_1 hr, slip_2 hr] <;> ring

include hn in
theorem C09_vanLeer (h : Adm G u) : WallFlux (vanLeer G u (BC.slip u n) n) n := by
  have hr := h.rho'
  have h1 := slip_vn hn hr
  have h2 := slip_p (G := G) hn hr
  have h3 := slip_c (G := G) hn hr
  have e1 : -Gas.varsVn u n / cSide G u > 1 ↔ Gas.varsVn u n / cSide G u < -1 := by
    rw [neg_div]; constructor <;> intro h <;> linarith
  have e2 : -Gas.varsVn u n / cSide G u < -1 ↔ Gas.varsVn u n / cSide G u > 1 := by
    rw [neg_div]; constructor <;> intro h <;> linarith
  have hv := slip_v2 hn hr
  simp only [dot] at hv
  have hw : (BC.slip u n 1 / u 0) ^ 2 + (BC.slip u n 2 / u 0) ^ 2 = (u 1 / u 0) ^ 2 + (u 2 / u 0) ^ 2 := by
    have : Gas.vel (BC.slip u n) 0 = BC.slip u n 1 / u 0 := rfl
    rw [this] at hv
    have : Gas.vel (BC.slip u n) 1 = BC.slip u n 2 / u 0 := rfl
    rw [this] at hv
    have : Gas.vel u 0 = u 1 / u 0 := rfl
    rw [this] at hv
    have : Gas.vel u 1 = u 2 / u 0 := rfl
    rw [this] at hv
    linarith
  have hd : ∀ x : ℝ, (u 1 - 2 * (Gas.varsVn u n * u 0) * x) / u 0 = u 1 / u 0 - 2 * Gas.varsVn u n * x := by
    intro x; field_simp
  have hd2 : ∀ x : ℝ, (u 2 - 2 * (Gas.varsVn u n * u 0) * x) / u 0 = u 2 / u 0 - 2 * Gas.varsVn u n * x := by
    intro x; field_simp
  have key : ∃ q, vanLeer G u (BC.slip u n) n = ![0, q * n 0, q * n 1, 0] := by
    by_cases c1 : Gas.varsVn u n / cSide G u < -1
    · refine ⟨0, ?_⟩
      funext i
      simp only [vanLeer, vlPlus, vlMinus, h1, h2, h3, e1, e2, c1, if_true]
      fin_cases i <;> simp
    · by_cases c2 : Gas.varsVn u n / cSide G u > 1
      · refine ⟨2 * (Gas.varsVn u n * Gas.varsVn u n * u 0 + G.varsP u), ?_⟩
        funext i
        simp only [vanLeer, vlPlus, vlMinus, h1, h2, h3, e1, e2, c1, c2, if_true, if_false]
        fin_cases i <;> simp [Gas.dirFlux, slip_0, slip_3, slip_1 hr, slip_2 hr] <;> ring
      · refine ⟨u 0 * cSide G u * (Gas.varsVn u n / cSide G u + 1) ^ 2 / 4
          * (2 * (2 * cSide G u - Gas.varsVn u n) / G.g + 2 * Gas.varsVn u n), ?_⟩
        funext i
        simp only [vanLeer, vlPlus, vlMinus, h1, h2, h3, e1, e2, c1, c2, if_false, slip_0, hw]
        fin_cases i <;> simp [slip_1 hr, slip_2 hr, hd, hd2] <;> ring
  obtain ⟨q, hq⟩ := key
  rw [hq]
  exact ⟨by simp, by simp, ⟨q, by simp, by simp⟩⟩

include hn in
theorem C09_ausm (h : Adm G u) : WallFlux (ausm G u (BC.slip u n) n) n := by
  have hr := h.rho'
  have h1 := slip_vn hn hr
  have h2 := slip_p (G := G) hn hr
  have h3 := slip_c (G := G) hn hr
  obtain ⟨a1, a2, a3, a4⟩ := ausm_split_neg (Gas.varsVn u n / cSide G u) (G.varsP u)
  simp only [ausm, h1, h2, h3, neg_div, a2, a4]
  have e : ausmML (Gas.varsVn u n / cSide G u) + -ausmML (Gas.varsVn u n / cSide G u) = 0 := by ring
  rw [e]
  refine ⟨by simp [ausmCore], by simp [ausmCore], ⟨2 * ausmPL (Gas.varsVn u n / cSide G u) (G.varsP u), by simp [ausmCore]; left; ring, by simp [ausmCore]; left; ring⟩⟩

include hn in
theorem C09_ausmPlus (h : Adm G u) : WallFlux (ausmPlus G u (BC.slip u n) n) n := by
  have hr := h.rho'
  have h1 := slip_vn hn hr
  have h2 := slip_p (G := G) hn hr
  obtain ⟨a1, a2, a3, a4⟩ := ausmp_split_neg (Gas.varsVn u n / ausmpCOf G u (BC.slip u n) n) (G.varsP u)
  simp only [ausmPlus, h1, h2, neg_div, a2, a4]
  have e : ausmpML (Gas.varsVn u n / ausmpCOf G u (BC.slip u n) n)
    + -ausmpML (Gas.varsVn u n / ausmpCOf G u (BC.slip u n) n) = 0 := by ring
  rw [e]
  refine ⟨by simp [ausmpCore], by simp [ausmpCore], ⟨2 * ausmpPL (Gas.varsVn u n / ausmpCOf G u (BC.slip u n) n) (G.varsP u), by simp [ausmpCore]; left; ring, by simp [ausmpCore]; left; ring⟩⟩

theorem slip_R (hr : u 0 ≠ 0) : (roeOf G u (BC.slip u n) n).R = 1 := by
  simp [roeOf, roeAvg, slip_0, div_self hr]

include hn in
theorem slip_roe_vn (hr : u 0 ≠ 0) : (roeOf G u (BC.slip u n) n).vn = 0 := by
  rw [roe_vn, slip_R hr, slip_vn hn hr]; simp

include hn in
theorem C09_roe (h : Adm G u) : WallFlux (roe G u (BC.slip u n) n) n := by
  have hr := h.rho'
  have h1 := slip_vn hn hr
  have h2 := slip_p (G := G) hn hr
  have hv := slip_roe_vn (G := G) hn hr
  have hdot : dot (roeOf G u (BC.slip u n) n).v n = 0 := hv
  simp only [dot] at hdot
  set a := roeOf G u (BC.slip u n) n with ha
  have hL : roeL a 3 = roeL a 0 := by simp [roeL, roeL0, hv]
  have e0 : Gas.vel (BC.slip u n) 0 - Gas.vel u 0 = -(2 * Gas.varsVn u n) * n 0 := by
    rw [slip_vel0 hr]; ring
  have e1 : Gas.vel (BC.slip u n) 1 - Gas.vel u 1 = -(2 * Gas.varsVn u n) * n 1 := by
    rw [slip_vel1 hr]; ring
  refine ⟨?_, ?_, ⟨G.varsP u + Gas.varsVn u n * Gas.varsVn u n * u 0
      + roeL a 0 * (a.rho * a.c * (2 * Gas.varsVn u n)) / (2 * a.c * a.c) * a.c, ?_, ?_⟩⟩
  · simp only [roe, ← ha, h1, h2, e0, e1, roeADU, roeLA, hL, Gas.dirFlux, slip_0]; simp; ring
  · simp only [roe, ← ha, h1, h2, e0, e1, roeADU, roeLA, hL, Gas.dirFlux, slip_0, slip_3, hv]; simp
    linear_combination (2 * roeL a 1 * a.rho * 2 * Gas.varsVn u n / 2) * hdot
  · simp only [roe, ← ha, h1, h2, e0, e1, roeADU, roeLA, hL, Gas.dirFlux, slip_0, slip_1 hr]; simp; ring
  · simp only [roe, ← ha, h1, h2, e0, e1, roeADU, roeLA, hL, Gas.dirFlux, slip_0, slip_2 hr]; simp; ring

include hn in
theorem slip_sr (hr : u 0 ≠ 0) : srOf G u (BC.slip u n) n = - slOf G u (BC.slip u n) n := by
  have h1 := slip_vn hn hr
  have h3 := slip_c (G := G) hn hr
  have hv := slip_roe_vn (G := G) hn hr
  simp only [srOf, slOf, waveL, waveR, h1, h3, hv]
  split_ifs <;> linarith

include hn in
theorem slip_sl_neg (h : Adm G u) : slOf G u (BC.slip u n) n < 0 := by
  have h1 := (waveL_le (Gas.varsVn u n) (cSide G u) (roeOf G u (BC.slip u n) n)).2
  have h2 := slip_roe_vn (G := G) hn h.rho'
  have h3 := roe_c_pos (n := n) h (slip_adm hn h)
  unfold slOf; rw [h2] at h1; linarith

include hn in
theorem C09_hll (h : Adm G u) : WallFlux (hll G u (BC.slip u n) n) n := by
  have hr := h.rho'
  have h1 := slip_vn hn hr
  have h2 := slip_p (G := G) hn hr
  have h3 := slip_H (G := G) hn hr
  have h4 := slip_sr (G := G) hn hr
  have h5 := slip_sl_neg hn h
  have eT : hllT1 (slOf G u (BC.slip u n) n) (srOf G u (BC.slip u n) n) = 1 / 2 := by
    rw [h4]
    have a1 : - slOf G u (BC.slip u n) n > 0 := by linarith
    have a2 : ¬ slOf G u (BC.slip u n) n > 0 := by linarith
    simp only [hllT1, a1, a2, if_true, if_false]
    rw [div_eq_div_iff (by linarith) (by norm_num)]; ring
  set t3 := hllT3 (slOf G u (BC.slip u n) n) (srOf G u (BC.slip u n) n) with ht3
  refine ⟨?_, ?_, ⟨G.varsP u + Gas.varsVn u n * Gas.varsVn u n * u 0 + t3 * (2 * (Gas.varsVn u n * u 0)), ?_, ?_⟩⟩ <;>
    simp only [hll, eT, ← ht3, h1, h2, h3, hllCore, slip_0, slip_3, slip_1 hr, slip_2 hr] <;> simp <;> ring

include hn in
theorem C09_hllc (h : Adm G u) : WallFlux (hllc G u (BC.slip u n) n) n := by
  have hr := h.rho'
  have hs := slip_adm hn h
  have h1 := slip_vn hn hr
  have h2 := slip_p (G := G) hn hr
  have h4 := slip_sr (G := G) hn hr
  have h5 := slip_sl_neg hn h
  have e : smOf G u (BC.slip u n) n = 0 := by
    simp only [smOf, contact, h4, h1, h2, slip_0]
    rw [div_eq_zero_iff]; left; ring
  have k2 := vn_lt_sr (ul := u) (n := n) hs
  have a1 : ¬ slOf G u (BC.slip u n) n > 0 := by linarith
  have a2 : ¬ (slOf G u (BC.slip u n) n ≤ 0 ∧ (0:ℝ) > 0) := by intro k; linarith [k.2]
  have a3 : ((0:ℝ) ≤ 0 ∧ srOf G u (BC.slip u n) n ≥ 0) := ⟨le_refl _, by rw [h4]; linarith⟩
  have hsr : srOf G u (BC.slip u n) n ≠ 0 := by rw [h4]; linarith
  have key : ∃ q, hllc G u (BC.slip u n) n = pressureFlux n q := by
    refine ⟨(BC.slip u n) 0 * (Gas.varsVn (BC.slip u n) n - srOf G u (BC.slip u n) n)
        * (Gas.varsVn (BC.slip u n) n - 0) + G.varsP (BC.slip u n), ?_⟩
    funext i
    have b := (C21_rankine_hugoniot (u := BC.slip u n) (p := G.varsP (BC.slip u n)) hs.rho' hn rfl hsr k2.ne' i).2
    have b2 : ∀ (w : St) (q : ℝ), Gas.dirFlux w n 0 q = pressureFlux n q := by
      intro w q; funext i; fin_cases i <;> simp [Gas.dirFlux, pressureFlux]
    rw [b2] at b
    simp only [hllc, hllcCore, e]
    rw [if_neg a1, if_neg a2, if_pos a3]
    linarith
  obtain ⟨q, hq⟩ := key
  rw [hq]
  exact ⟨by simp [pressureFlux], by simp [pressureFlux], ⟨q, by simp [pressureFlux], by simp [pressureFlux]⟩⟩

/-- C09: with the slip-wall ghost state no scheme lets mass or energy through the wall and the
momentum flux is along the normal. -/
theorem C09_slip_wall_flux (G : Gas) (u : St) (n : V2) (hn : n 0 * n 0 + n 1 * n 1 = 1) (h : Adm G u)
    (s : Scheme) : WallFlux (s.flux G u (BC.slip u n) n) n := by
  cases s
  · exact C09_llf hn h
  · exact C09_vanLeer hn h
  · exact C09_ausm hn h
  · exact C09_ausmPlus hn h
  · exact C09_roe hn h
  · exact C09_hll hn h
  · exact C09_hllc hn h

/-- Concrete case: a state moving towards the wall (normal velocity `33/10 / ...`). -/
example : Adm air uEx ∧ (![3/5, 4/5] : V2) 0 * (![3/5, 4/5] : V2) 0 + (![3/5, 4/5] : V2) 1 * (![3/5, 4/5] : V2) 1 = 1
    ∧ Gas.varsVn uEx ![3/5, 4/5] ≠ 0 := by
  refine ⟨adm_uEx, by norm_num, ?_⟩
  simp [Gas.varsVn, Gas.vel, dot, uEx]; norm_num

end slip
end Flux
end FVENS
