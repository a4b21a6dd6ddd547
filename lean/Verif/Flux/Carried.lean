import Verif.Flux.Upwind
import Verif.Flux.Order

/-!
# Gas of varying density carried along by a uniform stream (C110)

If velocity and pressure are the same everywhere, the Euler equations only move the density. Which flux schemes know this.
-/

namespace FVENS
namespace Flux

/-! ### Specification -/

/-- Gas of density `r` that moves with velocity `w` under pressure `p`. -/
noncomputable def carried (G : Gas) (w : V2) (p r : ℝ) : St :=
  ![r, r * w 0, r * w 1, p / (G.g - 1) + r * (w 0 * w 0 + w 1 * w 1) / 2]

/-- Flux of gas with velocity `w` and pressure `p` through a face with normal `n`: whatever the mass flux, momentum and kinetic energy belong to that mass,
and the pressure acts and works as in a uniform stream. -/
def Carries (G : Gas) (w : V2) (p : ℝ) (n : V2) (f : St) : Prop :=
  f 1 = f 0 * w 0 + p * n 0 ∧ f 2 = f 0 * w 1 + p * n 1 ∧
    f 3 = f 0 * ((w 0 * w 0 + w 1 * w 1) / 2) + G.g / (G.g - 1) * p * (w 0 * n 0 + w 1 * n 1)

/-! ### Auxiliary results -/

section
variable {G : Gas} {w n : V2} {p r a b : ℝ}

theorem carried_vel (hr : r ≠ 0) : Gas.vel (carried G w p r) = w := by
  funext d
  fin_cases d <;> simp [Gas.vel, carried] <;> field_simp

theorem carried_vn (hr : r ≠ 0) : Gas.varsVn (carried G w p r) n = w 0 * n 0 + w 1 * n 1 := by
  rw [varsVn_def, carried_vel hr]

theorem carried_p (hg : 1 < G.g) (hr : r ≠ 0) : G.varsP (carried G w p r) = p := by
  have : G.g - 1 ≠ 0 := by linarith
  simp only [Gas.varsP, carried_vel hr, dot]
  simp [carried]
  field_simp
  ring

theorem carried_adm (hg : 1 < G.g) (hr : 0 < r) (hp : 0 < p) : Adm G (carried G w p r) :=
  ⟨hg, hr, by rw [← varsP_eq (u := carried G w p r) (show r ≠ 0 from hr.ne'), carried_p hg hr.ne']; exact hp⟩

theorem carried_H (hg : 1 < G.g) (hr : r ≠ 0) : r * G.varsH (carried G w p r) = r * ((w 0 * w 0 + w 1 * w 1) / 2) + G.g / (G.g - 1) * p := by
  have h := varsH_eq (G := G) (u := carried G w p r) hr
  rw [carried_p hg hr] at h
  have : G.g - 1 ≠ 0 := by linarith
  change r * _ = _ at h
  rw [h]
  simp [carried]
  field_simp
  ring

theorem carried_dirFlux (hg : 1 < G.g) (vn : ℝ) : Gas.dirFlux (carried G w p r) n vn p = ![vn * r, vn * r * w 0 + p * n 0, vn * r * w 1 + p * n 1,
    vn * r * ((w 0 * w 0 + w 1 * w 1) / 2) + G.g / (G.g - 1) * p * vn] := by
  have : G.g - 1 ≠ 0 := by linarith
  funext i
  fin_cases i <;> simp [Gas.dirFlux, carried]
  · ring
  · ring
  · field_simp
    ring

/-- Every state with positive density is of this form. -/
theorem eq_carried {u : St} (hu : Adm G u) : u = carried G (Gas.vel u) (G.varsP u) (u 0) := by
  have h3 := energy_eq hu
  funext i
  fin_cases i
  · rfl
  · exact mom1_eq hu.rho'
  · exact mom2_eq hu.rho'
  · show u 3 = _
    rw [h3]
    simp [carried]
    try ring

theorem carried_dirFlux' (vn q : ℝ) : Gas.dirFlux (carried G w p r) n vn q 0 = vn * r := by
  simp [Gas.dirFlux, carried]

theorem ausmp_common (M : ℝ) : ausmpML M + ausmpMR M = M ∧ ausmpPL M p + ausmpPR M p = p := by
  unfold ausmpML ausmpMR ausmpPL ausmpPR
  by_cases h1 : |M| ≤ 1
  · simp only [if_pos h1]
    constructor <;> ring
  · by_cases h2 : M < -1
    · simp [h1, h2]
    · simp [h1, h2]

theorem carried_roe (ha : 0 < a) (hb : 0 < b) : (roeOf G (carried G w p a) (carried G w p b) n).v = w ∧
    (roeOf G (carried G w p a) (carried G w p b) n).vn = w 0 * n 0 + w 1 * n 1 := by
  have hR := roe_R_pos (G := G) (n := n) (ul := carried G w p a) (ur := carried G w p b) ha hb
  have av : (roeOf G (carried G w p a) (carried G w p b) n).v = w := by
    have : (roeOf G (carried G w p a) (carried G w p b) n).R + 1 ≠ 0 := by linarith
    funext d
    simp only [roeOf, roeAvg] at this ⊢
    rw [carried_vel ha.ne', carried_vel hb.ne']
    fin_cases d <;> simp <;> field_simp
  refine ⟨av, ?_⟩
  have : (roeOf G (carried G w p a) (carried G w p b) n).vn = dot (roeOf G (carried G w p a) (carried G w p b) n).v n := rfl
  rw [this, av]; rfl

/-- The speed of sound of the Roe averages lies between those of the sides. -/
theorem carried_roe_c (hg : 1 < G.g) (ha : 0 < a) (hb : 0 < b) (hp : 0 < p) :
    (roeOf G (carried G w p a) (carried G w p b) n).c ≤ max (cSide G (carried G w p a)) (cSide G (carried G w p b)) := by
  have al := carried_adm (w := w) hg ha hp
  have ar := carried_adm (w := w) hg hb hp
  have hR := roe_R_pos (G := G) (n := n) (ul := carried G w p a) (ur := carried G w p b) ha hb
  have h1 := roe_c_sq (n := n) al ar
  rw [roe_c_sq_arg (n := n) al ar, carried_vel ha.ne', carried_vel hb.ne'] at h1
  simp only [sub_self, ne_eq, OfNat.ofNat_ne_zero, not_false_eq_true, zero_pow, add_zero, mul_zero, zero_div] at h1
  have hc := roe_c_pos (n := n) al ar
  have ca := al.c_pos
  have cb := ar.c_pos
  set ca' := cSide G (carried G w p a)
  set cb' := cSide G (carried G w p b)
  generalize (roeOf G (carried G w p a) (carried G w p b) n).R = R at *
  generalize (roeOf G (carried G w p a) (carried G w p b) n).c = c at *
  have h2 := le_max_left ca' cb'
  have h3 := le_max_right ca' cb'
  have h0 : 0 < max ca' cb' := lt_of_lt_of_le ca h2
  refine abs_le_of_sq_le_sq' ?_ h0.le |>.2
  rw [pow_two, pow_two, h1, div_le_iff₀ (by linarith)]
  nlinarith [mul_le_mul h2 h2 ca.le h0.le, mul_le_mul_of_nonneg_left (mul_le_mul h3 h3 cb.le h0.le) hR.le]

theorem hll_spread {sl sr v C : ℝ} (h1 : sl < v) (h2 : v < sr) (h3 : v - C ≤ sl) (h4 : sr ≤ v + C) (a b : ℝ) :
    ∃ d, |v| ≤ d ∧ d ≤ |v| + C ∧ hllT1 sl sr * v * b + (1 - hllT1 sl sr) * v * a - hllT3 sl sr * (b - a) = (v * (a + b) - d * (b - a)) / 2 := by
  have hd : sr - sl ≠ 0 := by linarith
  have hC : 0 ≤ C := by linarith
  unfold hllT1 hllT3
  by_cases e1 : 0 < sl
  · refine ⟨v, by rw [abs_of_pos (by linarith)], by rw [abs_of_pos (by linarith)]; linarith, ?_⟩
    rw [if_pos (show sr > 0 by linarith), if_pos e1, abs_of_pos e1, abs_of_pos (show 0 < sr by linarith)]
    field_simp; ring
  · have e1 := not_lt.1 e1
    rw [if_neg (not_lt.2 e1), abs_of_nonpos e1]
    by_cases e2 : 0 < sr
    · rw [if_pos e2, abs_of_pos e2]
      refine ⟨((sl + sr) * v - 2 * sr * sl) / (sr - sl), ?_, ?_, ?_⟩
      · have hp : 0 < sr - sl := by linarith
        rw [abs_le]
        constructor
        · rw [neg_le_iff_add_nonneg', ← mul_nonneg_iff_of_pos_right hp, add_mul, div_mul_cancel₀ _ hd]
          nlinarith [mul_nonneg e2.le (sub_nonneg.2 h1.le)]
        · rw [le_div_iff₀ hp]
          nlinarith [mul_nonneg (neg_nonneg.2 e1) (sub_nonneg.2 h2.le)]
      · have hp : 0 < sr - sl := by linarith
        rw [div_le_iff₀ hp]
        rcases le_or_gt 0 v with hv | hv
        · rw [abs_of_nonneg hv]
          nlinarith [mul_nonneg (sub_nonneg.2 h4) hp.le, mul_nonneg (sub_nonneg.2 h1.le) (sub_nonneg.2 h4), mul_nonneg hv (sub_nonneg.2 h3), mul_nonneg hC (sub_nonneg.2 h2.le), mul_nonneg hC (sub_nonneg.2 h1.le), mul_nonneg (sub_nonneg.2 h2.le) (sub_nonneg.2 h3), mul_nonneg (neg_nonneg.2 e1) hC, mul_nonneg hv (sub_nonneg.2 h2.le), mul_nonneg hv (sub_nonneg.2 h1.le), mul_nonneg hv hC]
        · rw [abs_of_neg hv]
          nlinarith [mul_nonneg (sub_nonneg.2 h3) hp.le, mul_nonneg (sub_nonneg.2 h1.le) (sub_nonneg.2 h4), mul_nonneg (sub_nonneg.2 hv.le) (sub_nonneg.2 h3), mul_nonneg hC (sub_nonneg.2 h2.le), mul_nonneg hC (sub_nonneg.2 h1.le), mul_nonneg (sub_nonneg.2 h2.le) (sub_nonneg.2 h3), mul_nonneg e2.le hC, mul_nonneg (sub_nonneg.2 hv.le) (sub_nonneg.2 h2.le), mul_nonneg (sub_nonneg.2 hv.le) (sub_nonneg.2 h1.le), mul_nonneg (sub_nonneg.2 hv.le) hC]
      · field_simp; ring
    · have e2 := not_lt.1 e2
      rw [if_neg (not_lt.2 e2), abs_of_nonpos e2]
      refine ⟨-v, by rw [abs_of_neg (by linarith)], by rw [abs_of_neg (by linarith)]; linarith, ?_⟩
      field_simp; ring

theorem harten_bounds {δ x : ℝ} (hδ : 0 < δ) (hx : 0 ≤ x) : x ≤ harten δ x ∧ harten δ x ≤ x + δ := by
  unfold harten
  split_ifs with h
  · constructor
    · rw [le_div_iff₀ (by linarith)]; nlinarith [sq_nonneg (x - δ)]
    · rw [div_le_iff₀ (by linarith)]; nlinarith
  · exact ⟨le_rfl, by linarith⟩

/-! ### One face -/

variable (hg : 1 < G.g) (ha : 0 < a) (hb : 0 < b)
include hg ha hb

/-- C110: HLLC moves the gas of the side the stream comes from, with its full flux. -/
theorem C110_hllc (hp : 0 < p) : hllc G (carried G w p a) (carried G w p b) n =
    G.eulerFlux (carried G w p (if 0 < w 0 * n 0 + w 1 * n 1 then a else b)) n := by
  have al := carried_adm (w := w) hg ha hp
  have ar := carried_adm (w := w) hg hb hp
  have h1 := sl_lt_vn (ur := carried G w p b) (n := n) al
  have h2 := vn_lt_sr (ul := carried G w p a) (n := n) ar
  have vl : Gas.varsVn (carried G w p a) n = w 0 * n 0 + w 1 * n 1 := carried_vn ha.ne'
  have vr : Gas.varsVn (carried G w p b) n = w 0 * n 0 + w 1 * n 1 := carried_vn hb.ne'
  have hm : smOf G (carried G w p a) (carried G w p b) n = w 0 * n 0 + w 1 * n 1 := by
    have hd := den_pos (n := n) al ar
    unfold smOf contact
    rw [div_eq_iff hd.ne', vl, vr, carried_p hg ha.ne', carried_p hg hb.ne']
    ring
  unfold hllc
  rw [hm, vl, vr, carried_p hg ha.ne', carried_p hg hb.ne']
  rw [vl] at h1
  rw [vr] at h2
  generalize slOf G (carried G w p a) (carried G w p b) n = sl at *
  generalize srOf G (carried G w p a) (carried G w p b) n = sr at *
  have s1 : star (carried G w p a) n (w 0 * n 0 + w 1 * n 1) p sl (w 0 * n 0 + w 1 * n 1) = carried G w p a := by
    have : sl - (w 0 * n 0 + w 1 * n 1) ≠ 0 := by linarith
    funext i
    fin_cases i <;> simp [star, sub_self] <;> field_simp
  have s2 : star (carried G w p b) n (w 0 * n 0 + w 1 * n 1) p sr (w 0 * n 0 + w 1 * n 1) = carried G w p b := by
    have : sr - (w 0 * n 0 + w 1 * n 1) ≠ 0 := by linarith
    funext i
    fin_cases i <;> simp [star, sub_self] <;> field_simp
  unfold hllcCore
  rw [s1, s2]
  by_cases hv : 0 < w 0 * n 0 + w 1 * n 1
  · rw [if_pos hv, eulerFlux_eq (show a ≠ 0 from ha.ne'), vl, carried_p hg ha.ne']
    split_ifs with k1 k2 <;> first | rfl | (exfalso; linarith) | exact absurd ⟨not_lt.1 k1, hv⟩ k2 | (funext i; simp)
  · rw [if_neg hv, eulerFlux_eq (show b ≠ 0 from hb.ne'), vr, carried_p hg hb.ne']
    split_ifs <;> first | rfl | (exfalso; linarith) | (funext i; simp)

/-- C110: so does AUSM+. -/
theorem C110_ausmPlus (hp : 0 < p) : ausmPlus G (carried G w p a) (carried G w p b) n =
    G.eulerFlux (carried G w p (if 0 < w 0 * n 0 + w 1 * n 1 then a else b)) n := by
  have al := carried_adm (w := w) hg ha hp
  have ar := carried_adm (w := w) hg hb hp
  have vl : Gas.varsVn (carried G w p a) n = w 0 * n 0 + w 1 * n 1 := carried_vn ha.ne'
  have vr : Gas.varsVn (carried G w p b) n = w 0 * n 0 + w 1 * n 1 := carried_vn hb.ne'
  have hc := ausmpC_pos (n := n) al ar
  unfold ausmPlus
  simp only []
  rw [vl, vr, carried_p hg ha.ne', carried_p hg hb.ne']
  generalize ausmpCOf G (carried G w p a) (carried G w p b) n = ch at *
  obtain ⟨e1, e2⟩ := ausmp_common (p := p) ((w 0 * n 0 + w 1 * n 1) / ch)
  rw [e1, e2]
  have hg' : G.g - 1 ≠ 0 := by linarith
  have hm : ch * ((w 0 * n 0 + w 1 * n 1) / ch) = w 0 * n 0 + w 1 * n 1 := by field_simp
  by_cases hv : 0 < w 0 * n 0 + w 1 * n 1
  · rw [if_pos hv, eulerFlux_eq (show a ≠ 0 from ha.ne'), vl, carried_p hg ha.ne', carried_dirFlux hg]
    have hab : |(w 0 * n 0 + w 1 * n 1) / ch| = (w 0 * n 0 + w 1 * n 1) / ch := abs_of_pos (div_pos hv hc)
    funext i
    fin_cases i <;> simp [ausmpCore, hab, carried] <;> field_simp <;> ring
  · rw [if_neg hv, eulerFlux_eq (show b ≠ 0 from hb.ne'), vr, carried_p hg hb.ne', carried_dirFlux hg]
    have hab : |(w 0 * n 0 + w 1 * n 1) / ch| = -((w 0 * n 0 + w 1 * n 1) / ch) := abs_of_nonpos (div_nonpos_of_nonpos_of_nonneg (not_lt.1 hv) hc.le)
    funext i
    fin_cases i <;> simp [ausmpCore, hab, carried] <;> field_simp <;> ring

/-- C110: LLF. -/
theorem C110_llf : Carries G w p n (llf G (carried G w p a) (carried G w p b) n) ∧
    llf G (carried G w p a) (carried G w p b) n 0 = ((w 0 * n 0 + w 1 * n 1) * (a + b) -
      (|w 0 * n 0 + w 1 * n 1| + max (cSide G (carried G w p a)) (cSide G (carried G w p b))) * (b - a)) / 2 := by
  have vl : Gas.varsVn (carried G w p a) n = w 0 * n 0 + w 1 * n 1 := carried_vn ha.ne'
  have vr : Gas.varsVn (carried G w p b) n = w 0 * n 0 + w 1 * n 1 := carried_vn hb.ne'
  have hg' : G.g - 1 ≠ 0 := by linarith
  have hl : llfEig (w 0 * n 0 + w 1 * n 1) (cSide G (carried G w p a)) (w 0 * n 0 + w 1 * n 1) (cSide G (carried G w p b)) =
      |w 0 * n 0 + w 1 * n 1| + max (cSide G (carried G w p a)) (cSide G (carried G w p b)) := by
    unfold llfEig
    rw [← max_add_add_left]
    split_ifs with h
    · rw [max_eq_left h.le]
    · rw [max_eq_right (not_lt.1 h)]
  unfold Carries llf
  rw [eulerFlux_eq (show a ≠ 0 from ha.ne'), eulerFlux_eq (show b ≠ 0 from hb.ne'), vl, vr, carried_p hg ha.ne', carried_p hg hb.ne', hl, carried_dirFlux hg, carried_dirFlux hg]
  generalize |w 0 * n 0 + w 1 * n 1| + max (cSide G (carried G w p a)) (cSide G (carried G w p b)) = e
  refine ⟨⟨?_, ?_, ?_⟩, ?_⟩ <;> simp [carried] <;> field_simp <;> ring

/-- C110: HLL. -/
theorem C110_hll : Carries G w p n (hll G (carried G w p a) (carried G w p b) n) := by
  have vl : Gas.varsVn (carried G w p a) n = w 0 * n 0 + w 1 * n 1 := carried_vn ha.ne'
  have vr : Gas.varsVn (carried G w p b) n = w 0 * n 0 + w 1 * n 1 := carried_vn hb.ne'
  have hg' : G.g - 1 ≠ 0 := by linarith
  have H1 := carried_H (w := w) (p := p) hg ha.ne'
  have H2 := carried_H (w := w) (p := p) hg hb.ne'
  unfold Carries hll
  rw [vl, vr, carried_p hg ha.ne', carried_p hg hb.ne']
  generalize hllT1 _ _ = t1
  generalize hllT3 _ _ = t3
  refine ⟨?_, ?_, ?_⟩
  · simp [hllCore, carried]; ring
  · simp [hllCore, carried]; ring
  · simp only [hllCore]
    simp [carried]
    simp only [carried] at H1 H2
    linear_combination (t1 * (w 0 * n 0 + w 1 * n 1)) * H2 + ((1 - t1) * (w 0 * n 0 + w 1 * n 1)) * H1

/-- C110: Roe's scheme; the entropy fix adds to the speed of the stream. -/
theorem C110_roe (hp : 0 < p) : Carries G w p n (roe G (carried G w p a) (carried G w p b) n) ∧
    roe G (carried G w p a) (carried G w p b) n 0 = ((w 0 * n 0 + w 1 * n 1) * (a + b) -
      harten (fixeps * (roeOf G (carried G w p a) (carried G w p b) n).c) |w 0 * n 0 + w 1 * n 1| * (b - a)) / 2 := by
  have al := carried_adm (w := w) hg ha hp
  have ar := carried_adm (w := w) hg hb hp
  have vl : Gas.varsVn (carried G w p a) n = w 0 * n 0 + w 1 * n 1 := carried_vn ha.ne'
  have vr : Gas.varsVn (carried G w p b) n = w 0 * n 0 + w 1 * n 1 := carried_vn hb.ne'
  have hg' : G.g - 1 ≠ 0 := by linarith
  obtain ⟨av, an⟩ := carried_roe (G := G) (w := w) (n := n) (p := p) ha hb
  have am : (roeOf G (carried G w p a) (carried G w p b) n).vm2 = w 0 * w 0 + w 1 * w 1 := by
    have : (roeOf G (carried G w p a) (carried G w p b) n).vm2 = dot (roeOf G (carried G w p a) (carried G w p b) n).v (roeOf G (carried G w p a) (carried G w p b) n).v := rfl
    rw [this, av]; rfl
  have hl : roeL (roeOf G (carried G w p a) (carried G w p b) n) 1 =
      harten (fixeps * (roeOf G (carried G w p a) (carried G w p b) n).c) |w 0 * n 0 + w 1 * n 1| := by
    simp [roeL, roeL0, an]
  unfold Carries roe
  rw [vl, vr, carried_p hg ha.ne', carried_p hg hb.ne', carried_vel ha.ne', carried_vel hb.ne', carried_dirFlux hg, carried_dirFlux hg]
  simp only [roeADU, roeLA, av, am, hl, sub_self, mul_zero, zero_div, sub_zero]
  generalize harten _ _ = e
  refine ⟨⟨?_, ?_, ?_⟩, ?_⟩ <;> simp [carried] <;> field_simp <;> ring

/-- C110: the schemes LLF, HLL, HLLC, AUSM+ and Roe move momentum and energy with the mass. -/
theorem C110_flux (hp : 0 < p) (sch : Scheme) (hs : sch ≠ .vanLeer) (hs' : sch ≠ .ausm) : Carries G w p n (sch.flux G (carried G w p a) (carried G w p b) n) := by
  have he : ∀ r, 0 < r → Carries G w p n (G.eulerFlux (carried G w p r) n) := fun r hr => by
    have hg' : G.g - 1 ≠ 0 := by linarith
    rw [eulerFlux_eq (show r ≠ 0 from hr.ne'), carried_vn hr.ne', carried_p hg hr.ne', carried_dirFlux hg]
    refine ⟨?_, ?_, ?_⟩ <;> simp
  have hi : 0 < (if 0 < w 0 * n 0 + w 1 * n 1 then a else b) := by split_ifs <;> assumption
  cases sch with
  | llf => exact (C110_llf hg ha hb).1
  | vanLeer => exact absurd rfl hs
  | ausm => exact absurd rfl hs'
  | ausmPlus =>
    show Carries G w p n (ausmPlus G _ _ n)
    rw [C110_ausmPlus hg ha hb hp]; exact he _ hi
  | roe => exact (C110_roe hg ha hb hp).1
  | hll => exact C110_hll hg ha hb
  | hllc =>
    show Carries G w p n (hllc G _ _ n)
    rw [C110_hllc hg ha hb hp]; exact he _ hi

/-- C110: the mass flux of these schemes is a mean of both sides' mass fluxes and a multiple of the difference of the densities that is enough to make it monotone and not
larger than the fastest wave. -/
theorem C110_mass (hp : 0 < p) (sch : Scheme) (hs : sch ≠ .vanLeer) (hs' : sch ≠ .ausm) : ∃ d, |w 0 * n 0 + w 1 * n 1| ≤ d ∧
    d ≤ |w 0 * n 0 + w 1 * n 1| + max (cSide G (carried G w p a)) (cSide G (carried G w p b)) ∧
    (sch = .hllc ∨ sch = .ausmPlus → d = |w 0 * n 0 + w 1 * n 1|) ∧
    sch.flux G (carried G w p a) (carried G w p b) n 0 = ((w 0 * n 0 + w 1 * n 1) * (a + b) - d * (b - a)) / 2 := by
  have al := carried_adm (w := w) hg ha hp
  have ar := carried_adm (w := w) hg hb hp
  have ca := al.c_pos
  have cb := ar.c_pos
  have hmax := lt_of_lt_of_le ca (le_max_left (cSide G (carried G w p a)) (cSide G (carried G w p b)))
  have up : G.eulerFlux (carried G w p (if 0 < w 0 * n 0 + w 1 * n 1 then a else b)) n 0 =
      ((w 0 * n 0 + w 1 * n 1) * (a + b) - |w 0 * n 0 + w 1 * n 1| * (b - a)) / 2 := by
    by_cases hv : 0 < w 0 * n 0 + w 1 * n 1
    · rw [if_pos hv, eulerFlux_eq (show a ≠ 0 from ha.ne'), carried_vn ha.ne', carried_dirFlux', abs_of_pos hv]; ring
    · rw [if_neg hv, eulerFlux_eq (show b ≠ 0 from hb.ne'), carried_vn hb.ne', carried_dirFlux', abs_of_nonpos (not_lt.1 hv)]; ring
  cases sch with
  | vanLeer => exact absurd rfl hs
  | ausm => exact absurd rfl hs'
  | llf => exact ⟨_, by linarith, le_rfl, by simp, (C110_llf hg ha hb).2⟩
  | ausmPlus =>
    refine ⟨_, le_rfl, by linarith, fun _ => rfl, ?_⟩
    rw [← up, ← C110_ausmPlus hg ha hb hp]; rfl
  | hllc =>
    refine ⟨_, le_rfl, by linarith, fun _ => rfl, ?_⟩
    rw [← up, ← C110_hllc hg ha hb hp]; rfl
  | roe =>
    have hc := roe_c_pos (n := n) al ar
    have hc' := carried_roe_c (w := w) (n := n) hg ha hb hp
    have hf : 0 < fixeps := by norm_num [fixeps]
    have hf1 : fixeps ≤ 1 := by norm_num [fixeps]
    obtain ⟨h1, h2⟩ := harten_bounds (mul_pos hf hc) (abs_nonneg (w 0 * n 0 + w 1 * n 1))
    refine ⟨_, h1, ?_, by simp, (C110_roe hg ha hb hp).2⟩
    nlinarith
  | hll =>
    have h1 := sl_lt_vn (ur := carried G w p b) (n := n) al
    have h2 := vn_lt_sr (ul := carried G w p a) (n := n) ar
    rw [carried_vn ha.ne'] at h1
    rw [carried_vn hb.ne'] at h2
    have hc' := carried_roe_c (w := w) (n := n) hg ha hb hp
    have m1 := le_max_left (cSide G (carried G w p a)) (cSide G (carried G w p b))
    have m2 := le_max_right (cSide G (carried G w p a)) (cSide G (carried G w p b))
    obtain ⟨-, an⟩ := carried_roe (G := G) (w := w) (n := n) (p := p) ha hb
    have h3 : w 0 * n 0 + w 1 * n 1 - max (cSide G (carried G w p a)) (cSide G (carried G w p b)) ≤ slOf G (carried G w p a) (carried G w p b) n := by
      unfold slOf waveL
      rw [carried_vn ha.ne', an]
      split_ifs <;> linarith
    have h4 : srOf G (carried G w p a) (carried G w p b) n ≤ w 0 * n 0 + w 1 * n 1 + max (cSide G (carried G w p a)) (cSide G (carried G w p b)) := by
      unfold srOf waveR
      rw [carried_vn hb.ne', an]
      split_ifs <;> linarith
    obtain ⟨d, d1, d2, d3⟩ := hll_spread h1 h2 h3 h4 a b
    refine ⟨d, d1, d2, by simp, ?_⟩
    rw [← d3]
    show hll G _ _ n 0 = _
    unfold hll
    rw [carried_vn ha.ne', carried_vn hb.ne']
    simp [hllCore, carried]

omit ha hb in
theorem carried_c (c : ℝ) (hr : 0 < r) (hc : 0 ≤ c) (h : G.g * p = r * c ^ 2) : cSide G (carried G w p r) = c := by
  unfold cSide Gas.soundSpeed
  rw [carried_p hg hr.ne', h]
  show Real.sqrt (r * c ^ 2 / r) = c
  rw [mul_div_cancel_left₀ _ hr.ne', Real.sqrt_sq hc]

end

/-! ### Van Leer and AUSM -/

section

theorem air_one (w : V2) : cSide air (carried air w (5 / 7) 1) = 1 := carried_c (by norm_num [air]) 1 one_pos zero_le_one (by norm_num [air])

theorem air_four (w : V2) : cSide air (carried air w (5 / 7) 4) = 1 / 2 := carried_c (by norm_num [air]) (1 / 2) (by norm_num) (by norm_num) (by norm_num [air])

theorem ausm_not_carries : ¬ Carries air ![1 / 4, 0] (5 / 7) ![1, 0] (ausm air (carried air ![1 / 4, 0] (5 / 7) 1) (carried air ![1 / 4, 0] (5 / 7) 4) ![1, 0]) := by
  intro h
  have h1 := h.1
  have hg : 1 < air.g := by norm_num [air]
  simp only [ausm, air_one, air_four, carried_vn one_ne_zero, carried_vn four_ne_zero, carried_p hg one_ne_zero, carried_p hg four_ne_zero] at h1
  have e1 : |(1 / 4 : ℝ)| ≤ 1 := by rw [abs_of_pos] <;> norm_num
  have e2 : |(1 / 4 / (1 / 2) : ℝ)| ≤ 1 := by rw [abs_of_pos] <;> norm_num
  norm_num [ausmCore, ausmML, ausmMR, ausmPL, ausmPR, carried, e1, e2] at h1

theorem vanLeer_not_carries : ¬ Carries air ![0, 0] (5 / 7) ![1, 0] (vanLeer air (carried air ![0, 0] (5 / 7) 1) (carried air ![0, 0] (5 / 7) 4) ![1, 0]) := by
  intro h
  have h1 := h.2.2
  have hg : 1 < air.g := by norm_num [air]
  simp only [vanLeer, air_one, air_four, carried_vn one_ne_zero, carried_vn four_ne_zero, carried_p hg one_ne_zero, carried_p hg four_ne_zero] at h1
  norm_num [vlPlus, vlMinus, carried, air] at h1
  simp at h1
  norm_num at h1

/-- C110 fails for AUSM: gas of density 1 before gas of density 4, both moving at the same quarter of the first speed of sound under the same pressure; the interface
pressure is 215/256 of that pressure, since the Mach numbers differ. -/
theorem C110_ausm_refuted : ¬ ∀ (G : Gas) (w n : V2) (p a b : ℝ), 1 < G.g → 0 < p → 0 < a → 0 < b → Carries G w p n (ausm G (carried G w p a) (carried G w p b) n) :=
  fun h => ausm_not_carries (h _ _ _ _ _ _ (by norm_num [air]) (by norm_num) one_pos (by norm_num))

/-- C110 fails for van Leer's scheme already for gas at rest: heat flows between gas of density 1 and gas of density 4. -/
theorem C110_vanLeer_refuted : ¬ ∀ (G : Gas) (w n : V2) (p a b : ℝ), 1 < G.g → 0 < p → 0 < a → 0 < b → Carries G w p n (vanLeer G (carried G w p a) (carried G w p b) n) :=
  fun h => vanLeer_not_carries (h _ _ _ _ _ _ (by norm_num [air]) (by norm_num) one_pos (by norm_num))

/-- Gas of density 1 and gas of density 4 moving obliquely meet the hypotheses of `C110_flux`. -/
example : Carries air ![1 / 4, 1 / 3] (5 / 7) ![3 / 5, 4 / 5] (roe air (carried air ![1 / 4, 1 / 3] (5 / 7) 1) (carried air ![1 / 4, 1 / 3] (5 / 7) 4) ![3 / 5, 4 / 5]) :=
  C110_flux (by norm_num [air]) one_pos (by norm_num) (by norm_num) .roe (by decide) (by decide)

end

end Flux
end FVENS
