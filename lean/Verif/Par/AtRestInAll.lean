import Verif.Par.AtRestIn

/-!
# Gas at rest beside a subsonic inflow with AUSM+ and HLLC (C97)

`InFlow::computeGhostState`, src/spatial/abc.cpp:152-176, with `AUSMPlusFlux::get_flux` and `HLLCFlux::get_flux`, src/spatial/anumericalflux.cpp:480-554 and 1176-1228.
-/

namespace FVENS
namespace Par

open Msh FV Flux Ode
open Finset (range)

section
variable {G : Gas} {p : ℝ} {u : St} {n : V2}

/-- Ratio of the speed of sound that `InFlow::computeGhostState` assumes for the ghost state to that of gas at rest, src/spatial/abc.cpp:157-164. -/
noncomputable def inflowKappa (g : ℝ) : ℝ := (g - 1) * (1 + Real.sqrt ((g + 1) * (2 * g - 1) ^ 2 / (g - 1) - (g - 1) / 2)) / ((2 * g - 1) * (g + 1))

/-- The ghost state of a subsonic inflow beside gas at rest: admissible, moving along the normal; its speed and speed of sound in terms of those of the gas. -/
theorem inflow_still_ghost (hg : 1 < G.g) (hM : G.Minf ≠ 0) (hp : 0 < p) (hu : AtRest G p u) {pt tt : ℝ} (hpt : 0 < pt) (htt : 0 < tt) (hn : dot n n = 1) :
    Adm G (BC.inflow G pt tt u n) ∧ BC.inflow G pt tt u n 1 = BC.inflow G pt tt u n 0 * (Gas.varsVn (BC.inflow G pt tt u n) n * n 0) ∧
      BC.inflow G pt tt u n 2 = BC.inflow G pt tt u n 0 * (Gas.varsVn (BC.inflow G pt tt u n) n * n 1) ∧
      0 < inflowKappa G.g ∧ inflowKappa G.g ^ 2 * (2 * G.g ^ 2 + G.g - 1) < 2 * G.g ^ 2 ∧
      Gas.varsVn (BC.inflow G pt tt u n) n ^ 2 = 2 / (G.g - 1) * (G.g * p / u 0 * (1 - inflowKappa G.g ^ 2)) ∧
      cSide G (BC.inflow G pt tt u n) ^ 2 = tt * inflowKappa G.g ^ 2 / (G.Minf * G.Minf) := by
  have hg0 : 0 < G.g - 1 := by linarith
  have h2g : 0 < 2 * G.g - 1 := by linarith
  obtain ⟨hcs, hvn⟩ := C97_inflow_moves hg hM hp hu hpt htt hn
  set c := G.soundSpeedC u with hc
  have hcc : c * c = G.g * p / u 0 := by
    rw [hc]
    unfold Gas.soundSpeedC Gas.soundSpeed
    rw [hu.pr]
    have := hu.rho
    exact Real.mul_self_sqrt (by positivity)
  have hcpos : 0 < c := by
    rw [hc]
    unfold Gas.soundSpeedC Gas.soundSpeed
    rw [hu.pr]
    have := hu.rho
    positivity
  have hco : BC.inflowCo2 G u = c * c := by
    unfold BC.inflowCo2
    simp [dot, mom, hu.m1, hu.m2, hc]
  have hR : BC.inflowRminus G u n = -(c / (2 * G.g - 1)) := by
    unfold BC.inflowRminus
    simp [dot, mom, hu.m1, hu.m2, hc]
  set q := BC.inflowRad G u n with hq
  have hqe : q = (G.g + 1) * (2 * G.g - 1) ^ 2 / (G.g - 1) - (G.g - 1) / 2 := by
    rw [hq]
    unfold BC.inflowRad
    rw [hco, hR]
    field_simp
  have hcg : BC.inflowCg G u n = c * ((G.g - 1) * (1 + Real.sqrt q) / ((2 * G.g - 1) * (G.g + 1))) := by
    unfold BC.inflowCg
    rw [hR, ← hq]
    field_simp
  set κ := (G.g - 1) * (1 + Real.sqrt q) / ((2 * G.g - 1) * (G.g + 1)) with hκ
  have hs0 := Real.sqrt_nonneg q
  have hκ0 : 0 < κ := by rw [hκ]; positivity
  have hq0 : 0 ≤ q := by
    rw [hqe, sub_nonneg, div_le_div_iff₀ (by norm_num) hg0]
    nlinarith [mul_pos hg0 hg0, mul_pos (mul_pos hg0 hg0) hg0]
  have hss : Real.sqrt q * Real.sqrt q = q := Real.mul_self_sqrt hq0
  have hκ1 : κ ^ 2 * (2 * G.g ^ 2 + G.g - 1) < 2 * G.g ^ 2 := by
    have e : κ ^ 2 * (2 * G.g ^ 2 + G.g - 1) = (G.g - 1) ^ 2 * (1 + Real.sqrt q) ^ 2 / ((2 * G.g - 1) * (G.g + 1)) := by
      have : 2 * G.g ^ 2 + G.g - 1 = (2 * G.g - 1) * (G.g + 1) := by ring
      rw [hκ, this]; field_simp
    rw [e, div_lt_iff₀ (by positivity)]
    have h1 : (1 + Real.sqrt q) ^ 2 ≤ 2 * G.g + q * (2 * G.g / (2 * G.g - 1)) := by
      have : 2 * G.g + q * (2 * G.g / (2 * G.g - 1)) - (1 + Real.sqrt q) ^ 2 = (2 * G.g - 1 - Real.sqrt q) ^ 2 / (2 * G.g - 1) := by
        field_simp
        linear_combination (-2 * G.g) * hss
      have h2 : 0 ≤ (2 * G.g - 1 - Real.sqrt q) ^ 2 / (2 * G.g - 1) := by positivity
      linarith
    have h3 : (G.g - 1) ^ 2 * (q * (2 * G.g / (2 * G.g - 1))) ≤ 2 * G.g * (G.g - 1) * (G.g + 1) * (2 * G.g - 1) := by
      have : (G.g - 1) ^ 2 * (q * (2 * G.g / (2 * G.g - 1))) = 2 * G.g * (G.g - 1) * (G.g + 1) * (2 * G.g - 1) - (G.g - 1) ^ 3 * (G.g / (2 * G.g - 1)) := by
        rw [hqe]; field_simp
      have : 0 < (G.g - 1) ^ 3 * (G.g / (2 * G.g - 1)) := by positivity
      linarith
    have h4 : (G.g - 1) ^ 2 * (1 + Real.sqrt q) ^ 2 ≤ (G.g - 1) ^ 2 * (2 * G.g + q * (2 * G.g / (2 * G.g - 1))) := mul_le_mul_of_nonneg_left h1 (by positivity)
    nlinarith [mul_pos hg0 hg0, mul_pos (mul_pos hg0 hg0) hg0]
  have hκ2 : κ ^ 2 < 1 := by nlinarith [sq_nonneg κ]
  have hv : 0 ≤ 2 / (G.g - 1) * (BC.inflowCo2 G u - BC.inflowCg G u n * BC.inflowCg G u n) := by
    rw [hco, hcg]
    have : c * c - c * κ * (c * κ) = c * c * (1 - κ ^ 2) := by ring
    rw [this]
    have : 0 < 1 - κ ^ 2 := by linarith
    positivity
  have hM2 : 0 < G.Minf * G.Minf := mul_self_pos.2 hM
  have hd : 0 < BC.inflow G pt tt u n 0 := by
    simp only [BC.inflow, Matrix.cons_val_zero, Gas.densityOfPT]
    rw [hco, hcg]
    rw [mul_assoc G.g]
    positivity
  have hvel : ∀ i, Gas.vel (BC.inflow G pt tt u n) i = Real.sqrt (2 / (G.g - 1) * (BC.inflowCo2 G u - BC.inflowCg G u n * BC.inflowCg G u n)) * n i := fun i => by
    have hd' := hd.ne'
    simp only [BC.inflow, Matrix.cons_val_zero] at hd'
    fin_cases i <;> simp [BC.inflow, Gas.vel, hd']
  have hV : Gas.varsVn (BC.inflow G pt tt u n) n = Real.sqrt (2 / (G.g - 1) * (BC.inflowCo2 G u - BC.inflowCg G u n * BC.inflowCg G u n)) := by
    have : Gas.varsVn (BC.inflow G pt tt u n) n = Real.sqrt (2 / (G.g - 1) * (BC.inflowCo2 G u - BC.inflowCg G u n * BC.inflowCg G u n)) * dot n n := by
      simp only [Gas.varsVn, dot, hvel]; ring
    rw [this, hn, mul_one]
  have hP : G.varsP (BC.inflow G pt tt u n) = pt * (tt * BC.inflowCg G u n * BC.inflowCg G u n / BC.inflowCo2 G u / tt) ^ (G.g / (G.g - 1)) := by
    have hvv : dot (Gas.vel (BC.inflow G pt tt u n)) (Gas.vel (BC.inflow G pt tt u n)) =
        Real.sqrt (2 / (G.g - 1) * (BC.inflowCo2 G u - BC.inflowCg G u n * BC.inflowCg G u n)) *
          Real.sqrt (2 / (G.g - 1) * (BC.inflowCo2 G u - BC.inflowCg G u n * BC.inflowCg G u n)) * dot n n := by
      simp only [dot, hvel]; ring
    rw [hn, mul_one] at hvv
    have q3 : ∀ a b c d : ℝ, (![a, b, c, d] : St) 3 = d := fun _ _ _ _ => rfl
    unfold Gas.varsP
    rw [hvv]
    simp only [BC.inflow, Matrix.cons_val_zero, q3, Gas.energyOfP]
    field_simp
    ring
  have hPp : 0 < G.varsP (BC.inflow G pt tt u n) := by rw [hP, hco, hcg]; positivity
  have hm : ∀ i : Fin 2, Gas.vel (BC.inflow G pt tt u n) i = Gas.varsVn (BC.inflow G pt tt u n) n * n i := fun i => by rw [hvel, hV]
  have hK : inflowKappa G.g = κ := by rw [hκ, hqe]; rfl
  rw [hK]
  refine ⟨⟨hg, hd, ?_⟩, ?_, ?_, hκ0, hκ1, ?_, ?_⟩
  · rw [← varsP_eq hd.ne']
    exact hPp
  · rw [← hm 0]
    simp only [Gas.vel, Matrix.cons_val_zero]
    field_simp
  · rw [← hm 1]
    have : Gas.vel (BC.inflow G pt tt u n) 1 = BC.inflow G pt tt u n 2 / BC.inflow G pt tt u n 0 := rfl
    rw [this]
    field_simp
  · rw [hV, Real.sq_sqrt hv, hco, hcg, ← hcc]
    ring
  · have : cSide G (BC.inflow G pt tt u n) ^ 2 = G.g * G.varsP (BC.inflow G pt tt u n) / BC.inflow G pt tt u n 0 := by
      unfold cSide Gas.soundSpeed
      exact Real.sq_sqrt (by positivity)
    rw [this, hP]
    have hX : 0 < (tt * BC.inflowCg G u n * BC.inflowCg G u n / BC.inflowCo2 G u / tt) ^ (G.g / (G.g - 1)) := by
      rw [hco, hcg]; positivity
    have e0 : BC.inflow G pt tt u n 0 = G.densityOfPT (pt * (tt * BC.inflowCg G u n * BC.inflowCg G u n / BC.inflowCo2 G u / tt) ^ (G.g / (G.g - 1)))
        (tt * BC.inflowCg G u n * BC.inflowCg G u n / BC.inflowCo2 G u) := rfl
    rw [e0]
    unfold Gas.densityOfPT
    set X := (tt * BC.inflowCg G u n * BC.inflowCg G u n / BC.inflowCo2 G u / tt) ^ (G.g / (G.g - 1))
    rw [hco, hcg]
    field_simp

/-- The AUSM+ mass flux between gas at rest and gas that moves away from it is positive. -/
theorem ausmPlus_leaves (hg : 1 < G.g) (hp : 0 < p) {ul ur : St} (hl : AtRest G p ul) (hr : Adm G ur) (hv : 0 < Gas.varsVn ur n) : 0 < Flux.ausmPlus G ul ur n 0 := by
  have hv0 : Gas.varsVn ul n = 0 := (hl.contact hl n).vl
  have hc := ausmpC_pos (n := n) (hl.adm hg hp) hr
  have hM : 0 < Gas.varsVn ur n / ausmpCOf G ul ur n := div_pos hv hc
  set M := Gas.varsVn ur n / ausmpCOf G ul ur n with hMd
  have hMh : 0 < ausmpML (Gas.varsVn ul n / ausmpCOf G ul ur n) + ausmpMR M := by
    rw [hv0, zero_div]
    unfold ausmpML ausmpMR
    rw [abs_of_pos hM]
    split_ifs with h1 h2 h3 h4 h5 h6
    · have a1 : 0 < M * (2 - M) := mul_pos hM (by linarith)
      have a2 : 0 < M * M * (2 - M * M) := mul_pos (mul_pos hM hM) (by nlinarith)
      nlinarith
    all_goals simp at *
    all_goals nlinarith
  show 0 < _ * (_ / 2 * _ - |_| / 2 * _)
  rw [abs_of_pos hMh]
  refine mul_pos hc ?_
  have := mul_pos hMh hl.rho
  nlinarith

/-- The HLLC flux between gas at rest and gas that moves away from it along the normal: mass is carried in the direction of the contact speed; if that vanishes only the pressure acts. -/
theorem hllc_rest (hg : 1 < G.g) (hp : 0 < p) {ul ur : St} (hl : AtRest G p ul) (hr : Adm G ur) (hv : 0 < Gas.varsVn ur n) (h1 : ur 1 = ur 0 * (Gas.varsVn ur n * n 0))
    (h2 : ur 2 = ur 0 * (Gas.varsVn ur n * n 1)) :
    (0 < smOf G ul ur n → 0 < hllc G ul ur n 0) ∧ (smOf G ul ur n < 0 → hllc G ul ur n 0 < 0) ∧ (smOf G ul ur n = 0 → hllc G ul ur n = pressureFlux n p) := by
  have hv0 : Gas.varsVn ul n = 0 := (hl.contact hl n).vl
  have hP : G.varsP ul = p := (hl.contact hl n).pl
  have hsl : slOf G ul ur n < 0 := by have := sl_lt_vn (ur := ur) (n := n) (hl.adm hg hp); rwa [hv0] at this
  have hsr := vn_lt_sr (ul := ul) (n := n) hr
  have hden := den_pos (n := n) (hl.adm hg hp) hr
  have hsm : smOf G ul ur n * (ur 0 * (srOf G ul ur n - Gas.varsVn ur n) - ul 0 * slOf G ul ur n) = ur 0 * Gas.varsVn ur n * (srOf G ul ur n - Gas.varsVn ur n) + p - G.varsP ur := by
    unfold smOf contact
    rw [hv0, hP] at *
    rw [sub_zero] at hden ⊢
    field_simp
    ring
  unfold hllc hllcCore
  rw [hv0, hP]
  set sl := slOf G ul ur n
  set sr := srOf G ul ur n
  set sm := smOf G ul ur n
  set v := Gas.varsVn ur n
  rw [if_neg (by linarith : ¬ sl > 0)]
  refine ⟨fun h => ?_, fun h => ?_, fun h => ?_⟩
  · rw [if_pos ⟨hsl.le, h⟩]
    have e : Gas.dirFlux ul n 0 p 0 + sl * (Flux.star ul n 0 p sl sm 0 - ul 0) = ul 0 * (-sl) * sm / (sm - sl) := by
      have : sl - sm ≠ 0 := by linarith
      have : sm - sl ≠ 0 := by linarith
      simp only [Gas.dirFlux, Flux.star, Matrix.cons_val_zero]
      field_simp
      ring
    simp only [e]
    exact div_pos (mul_pos (mul_pos hl.rho (by linarith)) h) (by linarith)
  · rw [if_neg (fun e => by linarith [e.2]), if_pos ⟨h.le, by linarith⟩]
    have e : Gas.dirFlux ur n v (G.varsP ur) 0 + sr * (Flux.star ur n v (G.varsP ur) sr sm 0 - ur 0) = ur 0 * (sr - v) * sm / (sr - sm) := by
      have : sr - sm ≠ 0 := by linarith
      simp only [Gas.dirFlux, Flux.star, Matrix.cons_val_zero]
      field_simp
      ring
    simp only [e]
    exact div_neg_of_neg_of_pos (mul_neg_of_pos_of_neg (mul_pos hr.rho (by linarith)) h) (by linarith)
  · rw [if_neg (fun e => by linarith [e.2]), if_pos ⟨h.le, by linarith⟩]
    rw [h, zero_mul] at hsm
    have hpr : G.varsP ur = ur 0 * v * (sr - v) + p := by linarith
    have hs0 : sr ≠ 0 := by linarith
    rw [h, hpr]
    funext i
    fin_cases i
    · simp [Gas.dirFlux, Flux.star, pressureFlux]; field_simp; ring
    · simp [Gas.dirFlux, Flux.star, pressureFlux, h1]; field_simp; ring
    · simp [Gas.dirFlux, Flux.star, pressureFlux, h2]; field_simp; ring
    · simp [Gas.dirFlux, Flux.star, pressureFlux]; field_simp; ring

/-- The contact speed beside an inflow whose total temperature is at most the temperature of the gas leads out of the domain. -/
theorem inflow_contact (hg : 1 < G.g) (hM : G.Minf ≠ 0) (hp : 0 < p) (hu : AtRest G p u) {pt tt : ℝ} (hpt : 0 < pt) (htt : 0 < tt) (hn : dot n n = 1)
    (hT : tt ≤ G.temperature (u 0) p) : 0 < smOf G u (BC.inflow G pt tt u n) n := by
  obtain ⟨hr, -, -, hκ, hκ1, hV, hC⟩ := inflow_still_ghost hg hM hp hu hpt htt hn
  set κ := inflowKappa G.g
  obtain ⟨hc, hv⟩ := C97_inflow_moves hg hM hp hu hpt htt hn
  set w := BC.inflow G pt tt u n
  have hden := den_pos (n := n) (hu.adm hg hp) hr
  have hsr := (waveR_ge (Gas.varsVn w n) (cSide G w) (roeOf G u w n)).1
  have hg0 : 0 < G.g - 1 := by linarith
  have hM2 : 0 < G.Minf * G.Minf := mul_self_pos.2 hM
  have hu0 := hu.rho
  have hPp : 0 < G.varsP w := by rw [varsP_eq hr.rho.ne']; exact hr.p
  have hC2 : cSide G w ^ 2 = G.g * G.varsP w / w 0 := by
    have := hr.rho
    unfold cSide Gas.soundSpeed
    exact Real.sq_sqrt (by positivity)
  have hlt : cSide G w < G.g * Gas.varsVn w n := by
    refine lt_of_pow_lt_pow_left₀ 2 (by positivity) ?_
    rw [mul_pow, hV, hC]
    have h1 : tt * κ ^ 2 / (G.Minf * G.Minf) ≤ G.g * p / u 0 * κ ^ 2 := by
      rw [div_le_iff₀ hM2]
      have : G.temperature (u 0) p = G.g * p / u 0 * (G.Minf * G.Minf) := by unfold Gas.temperature; ring
      rw [this] at hT
      have := mul_le_mul_of_nonneg_right hT (sq_nonneg κ)
      linarith
    have h2 : G.g * p / u 0 * κ ^ 2 < G.g ^ 2 * (2 / (G.g - 1) * (G.g * p / u 0 * (1 - κ ^ 2))) := by
      have : G.g ^ 2 * (2 / (G.g - 1) * (G.g * p / u 0 * (1 - κ ^ 2))) = G.g * p / u 0 * (G.g ^ 2 * 2 * (1 - κ ^ 2) / (G.g - 1)) := by ring
      rw [this]
      refine mul_lt_mul_of_pos_left ?_ (by positivity)
      rw [lt_div_iff₀ hg0]
      nlinarith
    linarith
  have hP : G.varsP w = w 0 * cSide G w ^ 2 / G.g := by
    rw [hC2]
    have := hr.rho.ne'
    field_simp
  unfold smOf contact
  refine div_pos ?_ hden
  have hv0 : Gas.varsVn u n = 0 := (hu.contact hu n).vl
  have hPu : G.varsP u = p := (hu.contact hu n).pl
  rw [hv0, hPu]
  have h3 : cSide G w ≤ srOf G u w n - Gas.varsVn w n := by unfold srOf; linarith
  have h4 : cSide G w ^ 2 / G.g < Gas.varsVn w n * cSide G w := by
    rw [div_lt_iff₀ (by linarith)]
    nlinarith
  have h5 := mul_le_mul_of_nonneg_left h3 (mul_pos hr.rho hv).le
  have h6 := mul_lt_mul_of_pos_left h4 hr.rho
  rw [hP]
  have : w 0 * (cSide G w ^ 2 / G.g) = w 0 * cSide G w ^ 2 / G.g := by ring
  linarith

/-- Enthalpy in terms of the speed of sound. -/
theorem enthalpy_side (h : Adm G u) : (G.g - 1) * G.varsH u = cSide G u ^ 2 + (G.g - 1) / 2 * dot (Gas.vel u) (Gas.vel u) := by
  have h0 := h.rho
  have hg0 : 0 < G.g - 1 := by linarith [h.g1]
  have hP : 0 < G.varsP u := by rw [varsP_eq h0.ne']; exact h.p
  have hg : 0 < G.g := by linarith
  have e : cSide G u ^ 2 = G.g * G.varsP u / u 0 := by
    unfold cSide Gas.soundSpeed
    exact Real.sq_sqrt (by positivity)
  have h3 : (G.g - 1) * u 3 = G.varsP u + (G.g - 1) / 2 * u 0 * dot (Gas.vel u) (Gas.vel u) := by unfold Gas.varsP; ring
  rw [e]
  unfold Gas.varsH
  field_simp
  linear_combination 2 * h3

/-- Beside gas that moves away slowly, compared with its speed of sound, the right signal speed is that of the moving gas. -/
theorem sr_slow (hg : 1 < G.g) (hp : 0 < p) (hn : dot n n = 1) {ul ur : St} (hl : AtRest G p ul) (hr : Adm G ur) (hv : 0 < Gas.varsVn ur n)
    (h1 : ur 1 = ur 0 * (Gas.varsVn ur n * n 0)) (h2 : ur 2 = ur 0 * (Gas.varsVn ur n * n 1)) (hs : G.g * Gas.varsVn ur n ≤ cSide G ur) (hc : cSide G ul ≤ cSide G ur) :
    srOf G ul ur n = Gas.varsVn ur n + cSide G ur := by
  set v := Gas.varsVn ur n with hvd
  have hr0 := hr.rho
  have hv0 : Gas.vel ur 0 = v * n 0 := by show ur 1 / ur 0 = _; rw [h1]; field_simp
  have hv1 : Gas.vel ur 1 = v * n 1 := by show ur 2 / ur 0 = _; rw [h2]; field_simp
  have hl0 : Gas.vel ul 0 = 0 := by show ul 1 / ul 0 = 0; rw [hl.m1, zero_div]
  have hl1 : Gas.vel ul 1 = 0 := by show ul 2 / ul 0 = 0; rw [hl.m2, zero_div]
  have eH := enthalpy_side hr
  have eL := enthalpy_side (hl.adm hg hp)
  have hn' : n 0 * n 0 + n 1 * n 1 = 1 := hn
  have hdr : dot (Gas.vel ur) (Gas.vel ur) = v ^ 2 := by
    show Gas.vel ur 0 * Gas.vel ur 0 + Gas.vel ur 1 * Gas.vel ur 1 = _
    rw [hv0, hv1]; linear_combination v ^ 2 * hn'
  have hdl : dot (Gas.vel ul) (Gas.vel ul) = 0 := by
    show Gas.vel ul 0 * Gas.vel ul 0 + Gas.vel ul 1 * Gas.vel ul 1 = _
    rw [hl0, hl1]; ring
  rw [hdr] at eH
  rw [hdl, mul_zero, add_zero] at eL
  set R := Real.sqrt (ur 0 / ul 0) with hR
  have hRp : 0 < R := Real.sqrt_pos.2 (div_pos hr0 hl.rho)
  have hvn : (roeOf G ul ur n).vn = R * v / (R + 1) := by
    show (R * Gas.vel ur 0 + Gas.vel ul 0) / (R + 1) * n 0 + (R * Gas.vel ur 1 + Gas.vel ul 1) / (R + 1) * n 1 = _
    rw [hv0, hv1, hl0, hl1]
    field_simp
    linear_combination (R * v) * hn'
  have hcs := roe_c_sq (n := n) (hl.adm hg hp) hr
  have hH : (roeOf G ul ur n).H = (R * G.varsH ur + G.varsH ul) / (R + 1) := rfl
  have hvm : (roeOf G ul ur n).vm2 = (R * v / (R + 1)) ^ 2 := by
    show (R * Gas.vel ur 0 + Gas.vel ul 0) / (R + 1) * ((R * Gas.vel ur 0 + Gas.vel ul 0) / (R + 1)) + (R * Gas.vel ur 1 + Gas.vel ul 1) / (R + 1) * ((R * Gas.vel ur 1 + Gas.vel ul 1) / (R + 1)) = _
    rw [hv0, hv1, hl0, hl1]
    field_simp
    linear_combination (R ^ 2 * v ^ 2) * hn'
  have hcp := roe_c_pos (n := n) (hl.adm hg hp) hr
  have hle : (roeOf G ul ur n).c ≤ v / (R + 1) + cSide G ur := by
    have hcr := hr.c_pos
    have hcl := (hl.adm hg hp).c_pos
    refine le_of_pow_le_pow_left₀ two_ne_zero (by positivity) ?_
    have e : (roeOf G ul ur n).c ^ 2 = (R * cSide G ur ^ 2 + cSide G ul ^ 2) / (R + 1) + (G.g - 1) / 2 * (R / (R + 1) ^ 2) * v ^ 2 := by
      rw [pow_two, hcs, hH, hvm]
      have e1 : (G.g - 1) * ((R * G.varsH ur + G.varsH ul) / (R + 1) - (R * v / (R + 1)) ^ 2 * (1 / 2)) =
          (R * ((G.g - 1) * G.varsH ur) + (G.g - 1) * G.varsH ul) / (R + 1) - (G.g - 1) * (R * v / (R + 1)) ^ 2 * (1 / 2) := by ring
      rw [e1, eH, eL]
      field_simp
      ring
    have b1 : (R * cSide G ur ^ 2 + cSide G ul ^ 2) / (R + 1) ≤ cSide G ur ^ 2 := by
      rw [div_le_iff₀ (by positivity)]
      have := pow_le_pow_left₀ hcl.le hc 2
      linarith
    have b2 : (G.g - 1) / 2 * (R / (R + 1) ^ 2) * v ^ 2 ≤ 2 * (v / (R + 1)) * cSide G ur := by
      have : 2 * (v / (R + 1)) * (G.g * v) ≤ 2 * (v / (R + 1)) * cSide G ur := mul_le_mul_of_nonneg_left hs (by positivity)
      refine le_trans ?_ this
      have e2 : 2 * (v / (R + 1)) * (G.g * v) - (G.g - 1) / 2 * (R / (R + 1) ^ 2) * v ^ 2 = v ^ 2 / (R + 1) ^ 2 * (2 * G.g * (R + 1) - (G.g - 1) / 2 * R) := by
        field_simp
      have : 0 ≤ v ^ 2 / (R + 1) ^ 2 * (2 * G.g * (R + 1) - (G.g - 1) / 2 * R) := by
        refine mul_nonneg (by positivity) ?_
        have e3 : 2 * G.g * (R + 1) - (G.g - 1) / 2 * R = 2 * G.g + R * ((3 * G.g + 1) / 2) := by ring
        have hg1 : 0 < G.g := by linarith
        rw [e3]; positivity
      linarith
    rw [e]
    have e4 : (v / (R + 1) + cSide G ur) ^ 2 = (v / (R + 1)) ^ 2 + 2 * (v / (R + 1)) * cSide G ur + cSide G ur ^ 2 := by ring
    rw [e4]
    linarith [sq_nonneg (v / (R + 1))]
  have hsum : R * v / (R + 1) + v / (R + 1) = v := by field_simp
  unfold srOf waveR
  rw [hvn, if_neg (by linarith)]

/-- C97 at subsonic inflows with HLLC: for every sufficiently high total temperature there is a total pressure with which the contact speed vanishes, so that gas at rest stays at rest. -/
theorem C97_inflow_balance (hg : 1 < G.g) (hM : G.Minf ≠ 0) (hp : 0 < p) (hu : AtRest G p u) (hn : dot n n = 1) :
    ∃ T0, 0 < T0 ∧ ∀ tt, T0 < tt → ∃ pt, 0 < pt ∧ smOf G u (BC.inflow G pt tt u n) n = 0 := by
  have hM2 : 0 < G.Minf * G.Minf := mul_self_pos.2 hM
  obtain ⟨-, -, -, hκ, -, hV1, -⟩ := inflow_still_ghost hg hM hp hu one_pos one_pos hn
  have hv1 := (C97_inflow_moves hg hM hp hu one_pos one_pos hn).2
  have hcl := (hu.adm hg hp).c_pos
  set V := Gas.varsVn (BC.inflow G 1 1 u n) n with hVd
  have hg0 : 0 < G.g := by linarith
  have hVp : 0 < V := hv1
  refine ⟨G.Minf * G.Minf * (G.g * V + cSide G u) ^ 2 / inflowKappa G.g ^ 2, by positivity, fun tt ht => ?_⟩
  have htt : 0 < tt := lt_trans (by positivity) ht
  have hvt : ∀ pt, 0 < pt → Gas.varsVn (BC.inflow G pt tt u n) n = V := fun pt hpt => by
    obtain ⟨-, -, -, -, -, h1, -⟩ := inflow_still_ghost hg hM hp hu hpt htt hn
    exact (pow_left_inj₀ (C97_inflow_moves hg hM hp hu hpt htt hn).2.le hVp.le two_ne_zero).1 (h1.trans hV1.symm)
  have hct : ∀ pt, 0 < pt → cSide G (BC.inflow G pt tt u n) = cSide G (BC.inflow G 1 tt u n) := fun pt hpt => by
    obtain ⟨-, -, -, -, -, -, h1⟩ := inflow_still_ghost hg hM hp hu hpt htt hn
    obtain ⟨-, -, -, -, -, -, h2⟩ := inflow_still_ghost hg hM hp hu one_pos htt hn
    exact (pow_left_inj₀ (C97_inflow_moves hg hM hp hu hpt htt hn).1.le (C97_inflow_moves hg hM hp hu one_pos htt hn).1.le two_ne_zero).1 (h1.trans h2.symm)
  have hdt : ∀ pt, BC.inflow G pt tt u n 0 = pt * BC.inflow G 1 tt u n 0 := fun pt => by
    simp only [BC.inflow, Matrix.cons_val_zero, Gas.densityOfPT]
    ring
  obtain ⟨ha1, -, -, -, -, -, hC1⟩ := inflow_still_ghost hg hM hp hu one_pos htt hn
  set C := cSide G (BC.inflow G 1 tt u n) with hCd
  set d := BC.inflow G 1 tt u n 0 with hdd
  have hd : 0 < d := ha1.rho
  have hCp : 0 < C := ha1.c_pos
  have hlt : G.g * V + cSide G u < C := by
    refine lt_of_pow_lt_pow_left₀ 2 hCp.le ?_
    rw [hC1, lt_div_iff₀ hM2]
    rw [div_lt_iff₀ (by positivity)] at ht
    linarith
  have hq : 0 < d * (C * (C / G.g - V)) := mul_pos hd (mul_pos hCp (sub_pos.2 (by rw [lt_div_iff₀ hg0]; linarith)))
  refine ⟨p / (d * (C * (C / G.g - V))), by positivity, ?_⟩
  have hpt : 0 < p / (d * (C * (C / G.g - V))) := by positivity
  set pt := p / (d * (C * (C / G.g - V))) with hptd
  obtain ⟨ha, h1, h2, -⟩ := inflow_still_ghost hg hM hp hu hpt htt hn
  have hsr := sr_slow hg hp hn hu ha (by rw [hvt pt hpt]; exact hVp) h1 h2 (by rw [hvt pt hpt, hct pt hpt]; linarith) (by rw [hct pt hpt]; nlinarith)
  have hP : G.varsP (BC.inflow G pt tt u n) = pt * d * C ^ 2 / G.g := by
    have h0 := ha.rho
    have hPp : 0 < G.varsP (BC.inflow G pt tt u n) := by rw [varsP_eq h0.ne']; exact ha.p
    have e : cSide G (BC.inflow G pt tt u n) ^ 2 = G.g * G.varsP (BC.inflow G pt tt u n) / BC.inflow G pt tt u n 0 := by
      unfold cSide Gas.soundSpeed
      exact Real.sq_sqrt (by positivity)
    rw [hct pt hpt, hdt, eq_div_iff (by positivity)] at e
    rw [eq_div_iff hg0.ne']
    linarith
  have hv0 : Gas.varsVn u n = 0 := (hu.contact hu n).vl
  have hPu : G.varsP u = p := (hu.contact hu n).pl
  unfold smOf contact
  rw [hsr, hv0, hPu, hP, hct pt hpt, hvt pt hpt, hdt]
  refine div_eq_zero_iff.2 (Or.inl ?_)
  have : pt * (d * (C * (C / G.g - V))) = p := by rw [hptd]; exact div_mul_cancel₀ _ hq.ne'
  rw [← this]
  field_simp
  ring

end

/-! ### The mesh -/

section
variable {D : Disc} {p : ℝ} {c : St} {u : ℕ → St}

/-- The residual of a cell of gas at rest with one face at a subsonic inflow and harmless other faces. -/
theorem inflow_row (h : D.G.Ok) (hg : 1 < D.gas.g) (hp : 0 < p) (hv : D.viscous = false) (hs : KeepsContacts D.scheme) (hok : D.BcOk) {i k : ℕ} {pt tt : ℝ}
    (hk : k < D.G.m.nbface) (hki : (D.G.face k).left = i) (hbk : D.bc (D.tag k) = some (.inflow pt tt))
    (hb : ∀ j, j < D.G.m.nbface → (D.G.face j).left = i → j ≠ k → ∃ o, D.bc (D.tag j) = some o ∧ StillBc c o)
    (hc : AtRest D.gas p c) (hu : ∀ i, i < D.G.rows → AtRest D.gas p (u i)) :
    ∃ o, D.residual1 u 0 = some o ∧ ∀ v, o.res i v =
      -(D.G.len k * (D.scheme.flux D.gas (u i) (BC.inflow D.gas pt tt (u i) (D.G.nrm k)) (D.G.nrm k) v - pressureFlux (D.G.nrm k) p v)) := by
  have hkf : k < D.G.nface := lt_of_lt_of_le hk (by rw [h.nface_eq]; omega)
  have hi : i < D.G.m.nelem := hki ▸ (h.kind hkf).1
  have hun : AtRest D.gas p (u i) := by have := left_rest h hu hkf; rwa [hki] at this
  have hbe : beyond D u k = BC.inflow D.gas pt tt (u i) (D.G.nrm k) := by
    unfold beyond Disc.bstate
    rw [if_pos hk, hbk, hki]
    rfl
  have key := fun v => fluxes_but_one (p := p) (u := u) (uL := fun k => u (D.G.face k).left) (uR := beyond D u) (ug := beyond D u) h hg hp hv hun hi hk hki
    (fun j hj ht hjk => by
      have hl := left_rest h hu hj
      have hr : AtRest D.gas p (beyond D u j) := by
        unfold beyond
        split_ifs with hlt
        · have hjl : (D.G.face j).left = i := by
            rcases ht with e | e
            · exact e
            · have := (h.kind hj).2.2.1 hlt
              omega
          obtain ⟨o, ho, hs⟩ := hb j hlt hjl hjk
          unfold Disc.bstate
          rw [ho]
          exact hs.ghost_rest hc hl _
        · exact hu _ ((h.kind hj).2.2.2.2 (by omega))
      exact C20_contact_preserved (hl.adm hg hp) (hr.adm hg hp) (hl.contact hr _) _ hs) 0 v
  refine ⟨_, residual1_beyond hok u 0, fun v => ?_⟩
  have h1 := key v
  simp only [hbe, hki] at h1
  simp only [h1, Pi.zero_apply, zero_sub]

/-- C97 fails at subsonic inflows with every scheme that keeps stationary contacts: a cell of gas at rest loses mass through such a face, with AUSM and AUSM+ whatever is prescribed, with
HLLC if the prescribed total temperature is at most the temperature of the gas. -/
theorem C97_inflow_cell_schemes (h : D.G.Ok) (hg : 1 < D.gas.g) (hM : D.gas.Minf ≠ 0) (hp : 0 < p) (hv : D.viscous = false) (hs : KeepsContacts D.scheme) (hok : D.BcOk) {i k : ℕ} {pt tt : ℝ}
    (hpt : 0 < pt) (htt : 0 < tt) (hT : D.scheme = .hllc → tt ≤ D.gas.temperature (u i 0) p) (hk : k < D.G.m.nbface) (hki : (D.G.face k).left = i) (hbk : D.bc (D.tag k) = some (.inflow pt tt))
    (hb : ∀ j, j < D.G.m.nbface → (D.G.face j).left = i → j ≠ k → ∃ o, D.bc (D.tag j) = some o ∧ StillBc c o)
    (hc : AtRest D.gas p c) (hu : ∀ i, i < D.G.rows → AtRest D.gas p (u i)) :
    ∃ o, D.residual1 u 0 = some o ∧ o.res i 0 < 0 := by
  obtain ⟨o, ho, hr⟩ := inflow_row h hg hp hv hs hok hk hki hbk hb hc hu
  have hkf : k < D.G.nface := lt_of_lt_of_le hk (by rw [h.nface_eq]; omega)
  have hun : AtRest D.gas p (u i) := by have := left_rest h hu hkf; rwa [hki] at this
  have hn := Disc.nrm_unit h hkf
  have hlen := Disc.len_pos h hkf
  have hmv := C97_inflow_moves hg hM hp hun hpt htt hn
  obtain ⟨ha, h1, h2, -⟩ := inflow_still_ghost hg hM hp hun hpt htt hn
  have hm : 0 < D.scheme.flux D.gas (u i) (BC.inflow D.gas pt tt (u i) (D.G.nrm k)) (D.G.nrm k) 0 := by
    rcases hs with e | e | e
    · rw [e]; exact ausm_leaves hg hp hun hmv
    · rw [e]; exact ausmPlus_leaves hg hp hun ha hmv.2
    · rw [e]; exact (hllc_rest hg hp hun ha hmv.2 h1 h2).1 (inflow_contact hg hM hp hun hpt htt hn (hT e))
  refine ⟨o, ho, ?_⟩
  rw [hr]
  have e : pressureFlux (D.G.nrm k) p 0 = 0 := rfl
  rw [e, sub_zero]
  have := mul_pos hlen hm
  linarith

/-- C97 at subsonic inflows with HLLC: a cell of gas at rest stays at rest exactly if the contact speed between the gas and the ghost state vanishes; otherwise it loses or gains mass with
the sign of that speed. -/
theorem C97_inflow_hllc_iff (h : D.G.Ok) (hg : 1 < D.gas.g) (hM : D.gas.Minf ≠ 0) (hp : 0 < p) (hv : D.viscous = false) (hs : D.scheme = .hllc) (hok : D.BcOk) {i k : ℕ} {pt tt : ℝ}
    (hpt : 0 < pt) (htt : 0 < tt) (hk : k < D.G.m.nbface) (hki : (D.G.face k).left = i) (hbk : D.bc (D.tag k) = some (.inflow pt tt))
    (hb : ∀ j, j < D.G.m.nbface → (D.G.face j).left = i → j ≠ k → ∃ o, D.bc (D.tag j) = some o ∧ StillBc c o)
    (hc : AtRest D.gas p c) (hu : ∀ i, i < D.G.rows → AtRest D.gas p (u i)) :
    ∃ o, D.residual1 u 0 = some o ∧ (o.res i = 0 ↔ smOf D.gas (u i) (BC.inflow D.gas pt tt (u i) (D.G.nrm k)) (D.G.nrm k) = 0) ∧
      (o.res i 0 < 0 ↔ 0 < smOf D.gas (u i) (BC.inflow D.gas pt tt (u i) (D.G.nrm k)) (D.G.nrm k)) := by
  obtain ⟨o, ho, hr⟩ := inflow_row h hg hp hv (Or.inr (Or.inr hs)) hok hk hki hbk hb hc hu
  have hkf : k < D.G.nface := lt_of_lt_of_le hk (by rw [h.nface_eq]; omega)
  have hun : AtRest D.gas p (u i) := by have := left_rest h hu hkf; rwa [hki] at this
  have hn := Disc.nrm_unit h hkf
  have hlen := Disc.len_pos h hkf
  have hmv := C97_inflow_moves hg hM hp hun hpt htt hn
  obtain ⟨ha, h1, h2, -⟩ := inflow_still_ghost hg hM hp hun hpt htt hn
  obtain ⟨q1, q2, q3⟩ := hllc_rest hg hp hun ha hmv.2 h1 h2
  rw [hs] at hr
  have hr0 := hr 0
  have e : pressureFlux (D.G.nrm k) p 0 = 0 := rfl
  rw [e, sub_zero] at hr0
  change o.res i 0 = -(D.G.len k * hllc D.gas (u i) (BC.inflow D.gas pt tt (u i) (D.G.nrm k)) (D.G.nrm k) 0) at hr0
  refine ⟨o, ho, ⟨fun hz => ?_, fun hz => ?_⟩, fun hz => ?_, fun hz => ?_⟩
  · rw [congrFun hz 0] at hr0
    rcases lt_trichotomy (smOf D.gas (u i) (BC.inflow D.gas pt tt (u i) (D.G.nrm k)) (D.G.nrm k)) 0 with h3 | h3 | h3
    · have := mul_neg_of_pos_of_neg hlen (q2 h3)
      simp only [Pi.zero_apply] at hr0
      linarith
    · exact h3
    · have := mul_pos hlen (q1 h3)
      simp only [Pi.zero_apply] at hr0
      linarith
  · funext v
    rw [hr v]
    change -(D.G.len k * (hllc D.gas (u i) (BC.inflow D.gas pt tt (u i) (D.G.nrm k)) (D.G.nrm k) v - _)) = 0
    rw [q3 hz, sub_self, mul_zero, neg_zero]
  · by_contra h3
    rcases lt_or_eq_of_le (not_lt.1 h3) with h4 | h4
    · have := mul_neg_of_pos_of_neg hlen (q2 h4)
      linarith
    · rw [q3 h4, e, mul_zero, neg_zero] at hr0
      linarith
  · have := mul_pos hlen (q1 hz)
    linarith

end

/-! ### Cases -/

/-- Air in the square with subsonic inflows on all sides and any scheme. -/
noncomputable def airInflow (sch : Scheme) (pt tt : ℝ) : Settings := ⟨air, sch, false, false, fun _ => some (.inflow pt tt)⟩

/-- Uniform air at rest in the square with subsonic inflows at its own temperature: all cells lose mass, with AUSM, AUSM+ and HLLC, whatever total pressure is prescribed. -/
example {sch : Scheme} (hsch : KeepsContacts sch) {pt : ℝ} (hpt : 0 < pt) : ∃ s, topological FV.Geo.cross = .ok s ∧ ∀ i, i < 4 →
    ∃ o, ((airInflow sch pt (air.temperature 1 (2 / 5))).disc FV.Geo.cross s 0).residual1 (fun _ => rest 1) 0 = some o ∧ o.res i 0 < 0 := by
  obtain ⟨s, hs, hf⟩ := FV.Geo.cross_topological
  refine ⟨s, hs, fun i hi => ?_⟩
  set D := (airInflow sch pt (air.temperature 1 (2 / 5))).disc FV.Geo.cross s 0 with hD
  have hok : D.G.Ok := ⟨cross_conforming, FV.Geo.cross_nozero, hs⟩
  have hface : ∀ j, j < 4 → (D.G.face j).left = j := fun j hj => by
    show (faceAt s.faces j).left = j
    rcases (by omega : j = 0 ∨ j = 1 ∨ j = 2 ∨ j = 3) with rfl | rfl | rfl | rfl <;> simp [faceAt, hf]
  have hn : D.G.m.nbface = 4 := by show FV.Geo.cross.nbface = 4; decide +kernel
  exact C97_inflow_cell_schemes (D := D) (p := 2 / 5) (c := rest 1) (u := fun _ => rest 1) (i := i) (k := i) hok (by norm_num [hD, airInflow, Settings.disc, air])
    (by norm_num [hD, airInflow, Settings.disc, air]) (by norm_num) rfl hsch (fun _ _ => rfl) hpt temp_pos (fun _ => le_of_eq rfl) (by omega) (hface i hi) rfl
    (fun j hj hl hne => absurd (by rw [hface j (by omega)] at hl; exact hl) hne) (rest_atRest one_pos) (fun i _ => rest_atRest one_pos)

/-- With HLLC there are prescribed values with which a cell of the square stays at rest. -/
example : ∃ s pt tt, topological FV.Geo.cross = .ok s ∧ 0 < pt ∧ 0 < tt ∧
    ∃ o, ((airInflow .hllc pt tt).disc FV.Geo.cross s 0).residual1 (fun _ => rest 1) 0 = some o ∧ o.res 0 = 0 := by
  obtain ⟨s, hs, hf⟩ := FV.Geo.cross_topological
  have hok : ∀ pt tt, ((airInflow .hllc pt tt).disc FV.Geo.cross s 0).G.Ok := fun _ _ => ⟨cross_conforming, FV.Geo.cross_nozero, hs⟩
  have hface : ∀ j, j < 4 → (faceAt s.faces j).left = j := fun j hj => by
    rcases (by omega : j = 0 ∨ j = 1 ∨ j = 2 ∨ j = 3) with rfl | rfl | rfl | rfl <;> simp [faceAt, hf]
  have hn : FV.Geo.cross.nbface = 4 := by decide +kernel
  have h0 : 0 < ((airInflow .hllc 1 1).disc FV.Geo.cross s 0).G.nface := by
    have e := (hok 1 1).nface_eq
    have e2 : ((airInflow .hllc 1 1).disc FV.Geo.cross s 0).G.m.nbface = 4 := hn
    omega
  obtain ⟨T0, hT0, hT⟩ := C97_inflow_balance (G := air) (n := ((airInflow .hllc 1 1).disc FV.Geo.cross s 0).G.nrm 0) (by norm_num [air]) (by norm_num [air]) (by norm_num) (rest_atRest one_pos)
    (Disc.nrm_unit (hok 1 1) h0)
  obtain ⟨pt, hpt, hsm⟩ := hT (T0 + 1) (by linarith)
  set D := (airInflow .hllc pt (T0 + 1)).disc FV.Geo.cross s 0 with hD
  have hn' : D.G.m.nbface = 4 := hn
  obtain ⟨o, ho, hz, -⟩ := C97_inflow_hllc_iff (D := D) (p := 2 / 5) (c := rest 1) (u := fun _ => rest 1) (i := 0) (k := 0) (hok _ _) (by norm_num [hD, airInflow, Settings.disc, air])
    (by norm_num [hD, airInflow, Settings.disc, air]) (by norm_num) rfl rfl (fun _ _ => rfl) hpt (by linarith : 0 < T0 + 1) (by omega) (hface 0 (by omega)) rfl
    (fun j hj hl hne => absurd ((hface j (by omega)).symm.trans hl) hne) (rest_atRest one_pos) (fun i _ => rest_atRest one_pos)
  exact ⟨s, pt, T0 + 1, hs, hpt, by linarith, o, ho, hz.2 hsm⟩

end Par
end FVENS
