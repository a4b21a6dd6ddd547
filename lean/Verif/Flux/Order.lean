import Verif.Flux.Props

/-!
# Property C21: wave ordering and star states of HLLC, and the parts of C16, C20 that need it
-/

namespace FVENS
namespace Flux
variable {G : Gas} {u ul ur : St} {n : V2}

/-- First part of the scalar core, divided by the right density. -/
theorem order_key {R c2 C x y t : ℝ} (hR : 0 < R) (hc2 : 0 < c2) (hC : 0 < C) (hx0 : 0 < x)
    (hCC : R * (c2 * c2) < C * C * (1 + R)) (hx2 : C - R * t ≤ x) (hy1 : c2 ≤ y)
    (hy : y = c2 ∨ y = C - t) :
    0 < (x + t * (1 + R)) * y + (x / R) * (x / R) - 3 / 4 * (c2 * c2) := by
  have hR1 : 0 < 1 + R := by linarith
  have hxw : C + t ≤ x + t * (1 + R) := by linarith
  have hy0 : 0 < y := by linarith
  -- `c2 < C (1+R)/R`
  have hk : c2 < C * (1 + 1 / R) := by
    have h1 : c2 * R < C * (1 + R) := by
      by_contra hcon
      have hcon := not_lt.mp hcon
      have a1 : (C * (1 + R)) * (C * (1 + R)) ≤ (c2 * R) * (c2 * R) :=
        mul_self_le_mul_self (by positivity) hcon
      have a2 : R * (c2 * c2) * (1 + R) < C * C * (1 + R) * (1 + R) :=
        mul_lt_mul_of_pos_right hCC hR1
      have a3 : 0 < R * (c2 * c2) := by positivity
      nlinarith
    have h2 : C * (1 + 1 / R) = C * (1 + R) / R := by field_simp; ring
    rw [h2, lt_div_iff₀ hR]; exact h1
  have hxR : C / R - t ≤ x / R := by
    rw [le_div_iff₀ hR]
    have : (C / R - t) * R = C - R * t := by field_simp
    linarith
  have e1 : (C + t) * y ≤ (x + t * (1 + R)) * y := mul_le_mul_of_nonneg_right hxw hy0.le
  by_cases hs : 0 ≤ C / R - t
  · have e2 : (C / R - t) * (C / R - t) ≤ x / R * (x / R) := mul_self_le_mul_self hs hxR
    rcases hy with hy | hy
    · -- y = c2
      rw [hy] at e1 ⊢
      have e3 : (C + t) * c2 + (C / R - t) * (C / R - t)
          = (t - C / R + c2 / 2) * (t - C / R + c2 / 2) + C * (1 + 1 / R) * c2 - c2 * c2 / 4 := by ring
      have e4 : c2 * c2 < C * (1 + 1 / R) * c2 := mul_lt_mul_of_pos_right hk hc2
      have := mul_self_nonneg (t - C / R + c2 / 2)
      linarith
    · -- y = C - t
      have hyt : c2 ≤ C - t := by linarith
      rw [hy] at e1 ⊢
      have e3 : (C + t) * (C - t) + (C / R - t) * (C / R - t)
          = C * C * (1 + 1 / R * (1 / R)) - 2 * C * t * (1 / R) := by ring
      have hq : 0 < 1 / R := by positivity
      by_cases ht0 : 0 ≤ t
      · have a1 : 2 * C * t * (1 / R) ≤ 2 * C * (C - c2) * (1 / R) := by
          have : t ≤ C - c2 := by linarith
          gcongr
        have hCc : c2 ≤ C := by linarith
        have a2 : C * C * (1 + 1 / R * (1 / R)) - 2 * C * (C - c2) * (1 / R)
          = C * C * ((1 - 1 / R) * (1 - 1 / R)) + 2 * C * c2 * (1 / R) := by ring
        have a3 : c2 * c2 * ((1 - 1 / R) * (1 - 1 / R)) ≤ C * C * ((1 - 1 / R) * (1 - 1 / R)) :=
          mul_le_mul_of_nonneg_right (mul_self_le_mul_self hc2.le hCc) (mul_self_nonneg _)
        have a4 : 2 * c2 * c2 * (1 / R) ≤ 2 * C * c2 * (1 / R) := by gcongr
        have a5 : c2 * c2 * ((1 - 1 / R) * (1 - 1 / R)) + 2 * c2 * c2 * (1 / R)
          = c2 * c2 * (1 + 1 / R * (1 / R)) := by ring
        have a6 : c2 * c2 ≤ c2 * c2 * (1 + 1 / R * (1 / R)) := by
          have : 0 ≤ 1 / R * (1 / R) := by positivity
          nlinarith [mul_pos hc2 hc2]
        have a7 := mul_pos hc2 hc2
        linarith
      · have a1 : 0 ≤ - (2 * C * t * (1 / R)) := by
          have : 0 ≤ 2 * C * (-t) * (1 / R) := by
            have : 0 ≤ -t := by linarith
            positivity
          linarith
        have a2 : 3 / 4 * (c2 * c2) < C * C * (1 + 1 / R * (1 / R)) := by
          have b1 : C * C * (1 + 1 / R * (1 / R)) = C * C * (1 + R) * ((R * R + 1) / (R * R * (1 + R))) := by
            field_simp
          have b2 : R * (c2 * c2) * ((R * R + 1) / (R * R * (1 + R)))
              < C * C * (1 + R) * ((R * R + 1) / (R * R * (1 + R))) :=
            mul_lt_mul_of_pos_right hCC (by positivity)
          have b3 : R * (c2 * c2) * ((R * R + 1) / (R * R * (1 + R))) = c2 * c2 * ((R * R + 1) / (R * (1 + R))) := by
            field_simp
          have b4 : 3 / 4 ≤ (R * R + 1) / (R * (1 + R)) := by
            rw [le_div_iff₀ (by positivity)]; nlinarith [mul_self_nonneg (R - 3 / 2)]
          have b5 : c2 * c2 * (3 / 4) ≤ c2 * c2 * ((R * R + 1) / (R * (1 + R))) :=
            mul_le_mul_of_nonneg_left b4 (by positivity)
          linarith
        linarith
  · have hs := not_le.mp hs
    have hxr2 : 0 ≤ x / R * (x / R) := mul_self_nonneg _
    have hct : c2 ≤ C + t := by
      have : C * (1 + 1 / R) = C + C / R := by ring
      linarith
    have e3 : c2 * c2 ≤ (C + t) * y := mul_le_mul hct hy1 hc2.le (by linarith)
    have := mul_pos hc2 hc2
    linarith

/-- Scalar core of the ordering proof: with `x = vₗ - sₗ`, `y = sᵣ - vᵣ`, `w = vᵣ - vₗ`. -/
theorem order_core {g R c1 c2 C p1 p2 r1 r2 x y w : ℝ} (hg : 4 ≤ 3 * g) (hR : 0 < R) (hr1 : 0 < r1)
    (hc1 : 0 < c1) (hc2 : 0 < c2) (hC : 0 < C) (hp1 : 0 < p1) (hr2 : R * R * r1 = r2)
    (hcp2 : c2 * c2 * r2 = g * p2) (hCC : R * (c2 * c2) < C * C * (1 + R))
    (hx1 : c1 ≤ x) (hx2 : C - R * (w / (1 + R)) ≤ x) (hy1 : c2 ≤ y) (hy2 : C - w / (1 + R) ≤ y)
    (hy : y = c2 ∨ y = C - w / (1 + R)) :
    0 < r2 * (x + w) * y + r1 * (x * x) + p1 - p2 := by
  obtain ⟨t, ht⟩ : ∃ t, t = w / (1 + R) := ⟨_, rfl⟩
  have hR1 : 0 < 1 + R := by linarith
  have hw : w = t * (1 + R) := by rw [ht]; field_simp
  rw [← ht] at hx2 hy2 hy
  subst hw
  have hx0 : 0 < x := by linarith
  have hr2p : 0 < r2 := by rw [← hr2]; positivity
  -- `p2 ≤ 3/4 r2 c2²`
  have hp2 : p2 ≤ 3 / 4 * (r2 * (c2 * c2)) := by
    have h1 : 0 < c2 * c2 * r2 := by positivity
    have : 0 < g := by linarith
    have hp2 : 0 < p2 := by
      by_contra h
      have : g * p2 ≤ 0 := mul_nonpos_of_nonneg_of_nonpos this.le (not_lt.mp h)
      linarith
    nlinarith
  have key := order_key hR hc2 hC hx0 hCC hx2 hy1 hy
  have hr1R : r1 * (x * x) = r2 * ((x / R) * (x / R)) := by rw [← hr2]; field_simp
  rw [hr1R]
  have := mul_pos hr2p key
  nlinarith

/-- Inequality on the Roe sound speed used by the ordering proof. -/
theorem roe_c_sq_gt (hl : Adm G ul) (hr : Adm G ur) :
    (roeOf G ul ur n).R * (cSide G ur * cSide G ur)
      < (roeOf G ul ur n).c * (roeOf G ul ur n).c * (1 + (roeOf G ul ur n).R) := by
  have h1 := roe_c_sq (n := n) hl hr
  have h2 := roe_c_sq_arg (n := n) hl hr
  simp only at h2
  rw [h1, h2]
  set a := roeOf G ul ur n
  have hR : 0 < a.R := roe_R_pos (G := G) (n := n) hl.rho hr.rho
  have hg : 0 < G.g - 1 := by linarith [hl.g1]
  have hc := mul_pos hl.c_pos hl.c_pos
  rw [add_mul, div_mul_cancel₀ _ (by linarith : (1 + a.R) ≠ 0)]
  have : 0 ≤ (G.g - 1) / 2 * a.R * ((Gas.vel ur 0 - Gas.vel ul 0) ^ 2 + (Gas.vel ur 1 - Gas.vel ul 1) ^ 2)
        / (1 + a.R) ^ 2 * (1 + a.R) := by positivity
  linarith

theorem roe_vn (ul ur : St) (n : V2) :
    (roeOf G ul ur n).vn = ((roeOf G ul ur n).R * Gas.varsVn ur n + Gas.varsVn ul n) / ((roeOf G ul ur n).R + 1) := by
  simp [roeOf, roeAvg, dot, varsVn_def]; ring

/-- The contact wave is faster than the left acoustic wave. -/
theorem sl_lt_sm (hg : 4 ≤ 3 * G.g) (hl : Adm G ul) (hr : Adm G ur) :
    slOf G ul ur n < smOf G ul ur n := by
  have hd := den_pos (n := n) hl hr
  have hR : 0 < (roeOf G ul ur n).R := roe_R_pos (G := G) (n := n) hl.rho hr.rho
  have hw : ∀ a : ℝ, (roeOf G ul ur n).vn + a = Gas.varsVn ur n + (a - (Gas.varsVn ur n - Gas.varsVn ul n) / (1 + (roeOf G ul ur n).R)) := by
    intro a; rw [roe_vn]; field_simp; ring
  have hw2 : (roeOf G ul ur n).vn = Gas.varsVn ul n + (roeOf G ul ur n).R * ((Gas.varsVn ur n - Gas.varsVn ul n) / (1 + (roeOf G ul ur n).R)) := by
    rw [roe_vn]; field_simp; ring
  have hL := waveL_le (Gas.varsVn ul n) (cSide G ul) (roeOf G ul ur n)
  have hRr := waveR_ge (Gas.varsVn ur n) (cSide G ur) (roeOf G ul ur n)
  have hy : srOf G ul ur n - Gas.varsVn ur n = cSide G ur ∨ srOf G ul ur n - Gas.varsVn ur n =
      (roeOf G ul ur n).c - (Gas.varsVn ur n - Gas.varsVn ul n) / (1 + (roeOf G ul ur n).R) := by
    unfold srOf waveR
    split_ifs
    · right; rw [hw]; ring
    · left; ring
  have hw' := hw (roeOf G ul ur n).c
  have := order_core (g := G.g) (R := (roeOf G ul ur n).R) (c1 := cSide G ul) (c2 := cSide G ur)
    (C := (roeOf G ul ur n).c) (p1 := G.varsP ul) (p2 := G.varsP ur) (r1 := ul 0) (r2 := ur 0)
    (x := Gas.varsVn ul n - slOf G ul ur n) (y := srOf G ul ur n - Gas.varsVn ur n)
    (w := Gas.varsVn ur n - Gas.varsVn ul n) hg hR hl.rho hl.c_pos hr.c_pos (roe_c_pos hl hr) hl.vp
    (roe_R_sq hl.rho hr.rho) hr.c_sq (roe_c_sq_gt hl hr)
    (by unfold slOf; linarith) (by unfold slOf; linarith) (by unfold srOf; linarith)
    (by unfold srOf; linarith) hy
  unfold smOf contact
  rw [lt_div_iff₀ hd]
  linarith

theorem sm_swap (hl : Adm G ul) (hr : Adm G ur) : smOf G ur ul (-n) = - smOf G ul ur n := by
  obtain ⟨e1, e2⟩ := slsr_swap hl hr n
  unfold smOf
  rw [e1, e2, varsVn_neg, varsVn_neg]
  unfold contact
  rw [← neg_div]
  congr 1 <;> ring

theorem sm_lt_sr (hg : 4 ≤ 3 * G.g) (hl : Adm G ul) (hr : Adm G ur) :
    smOf G ul ur n < srOf G ul ur n := by
  have h := sl_lt_sm (n := -n) hg hr hl
  rw [sm_swap hl hr, (slsr_swap hl hr n).1] at h
  linarith

/-- C21: for `γ ≥ 4/3` (air: 1.4) the contact speed lies strictly between the acoustic speeds. -/
theorem C21_wave_order (hg : 4 ≤ 3 * G.g) (hl : Adm G ul) (hr : Adm G ur) (n : V2) :
    slOf G ul ur n < smOf G ul ur n ∧ smOf G ul ur n < srOf G ul ur n :=
  ⟨sl_lt_sm hg hl hr, sm_lt_sr hg hl hr⟩

/-- C21: star densities are positive. -/
theorem C21_star_density_pos (hg : 4 ≤ 3 * G.g) (hl : Adm G ul) (hr : Adm G ur) (n : V2) :
    0 < star ul n (Gas.varsVn ul n) (G.varsP ul) (slOf G ul ur n) (smOf G ul ur n) 0 ∧
    0 < star ur n (Gas.varsVn ur n) (G.varsP ur) (srOf G ul ur n) (smOf G ul ur n) 0 := by
  have h1 := sl_lt_sm (n := n) hg hl hr
  have h2 := sm_lt_sr (n := n) hg hl hr
  have h3 := sl_lt_vn (ur := ur) (n := n) hl
  have h4 := vn_lt_sr (ul := ul) (n := n) hr
  constructor
  · simp only [star, Matrix.cons_val_zero]
    rw [← neg_div_neg_eq]
    apply div_pos
    · have := mul_pos hl.rho (sub_pos.mpr h3); linarith
    · linarith
  · simp only [star, Matrix.cons_val_zero]
    apply div_pos
    · exact mul_pos hr.rho (sub_pos.mpr h4)
    · linarith

/-- C21: Rankine-Hugoniot jump relation across an acoustic wave: the flux of the star state with
normal velocity `sm` and the star pressure differs from the outer flux by wave speed times jump. -/
theorem C21_rankine_hugoniot {vn p ss sm : ℝ} (hu : u 0 ≠ 0) (hn : n 0 * n 0 + n 1 * n 1 = 1)
    (hvn : vn = Gas.varsVn u n) (h : ss ≠ sm) (hv : ss ≠ vn) (i : Fin 4) :
    let us := star u n vn p ss sm
    let ps := u 0 * (vn - ss) * (vn - sm) + p
    Gas.varsVn us n = sm ∧
      Gas.dirFlux us n sm ps i - Gas.dirFlux u n vn p i = ss * (us i - u i) := by
  have h' : ss - sm ≠ 0 := sub_ne_zero.mpr h
  have hv' : ss - vn ≠ 0 := sub_ne_zero.mpr hv
  have hvn2 : u 0 * vn = u 1 * n 0 + u 2 * n 1 := by
    rw [hvn, varsVn_def]; simp [Gas.vel]; field_simp
  intro us ps
  constructor
  · simp only [us, star, varsVn_def, Gas.vel]
    simp
    field_simp
    linear_combination (-(ss - vn)) * hvn2 + (u 0 * (vn - ss) * (vn - sm)) * hn
  · fin_cases i <;> simp [us, ps, star, Gas.dirFlux] <;> field_simp <;> ring

/-- C21: both star states have the same pressure. -/
theorem C21_star_pressure (hl : Adm G ul) (hr : Adm G ur) (n : V2) :
    ul 0 * (Gas.varsVn ul n - slOf G ul ur n) * (Gas.varsVn ul n - smOf G ul ur n) + G.varsP ul =
    ur 0 * (Gas.varsVn ur n - srOf G ul ur n) * (Gas.varsVn ur n - smOf G ul ur n) + G.varsP ur := by
  have hd := (den_pos (n := n) hl hr).ne'
  have h : smOf G ul ur n * (ur 0 * (srOf G ul ur n - Gas.varsVn ur n) - ul 0 * (slOf G ul ur n - Gas.varsVn ul n))
    = ur 0 * Gas.varsVn ur n * (srOf G ul ur n - Gas.varsVn ur n)
      - ul 0 * Gas.varsVn ul n * (slOf G ul ur n - Gas.varsVn ul n) + G.varsP ul - G.varsP ur := by
    unfold smOf contact; rw [div_mul_cancel₀ _ hd]
  linarith

/-- Concrete case for the ordering hypotheses. -/
example : 4 ≤ 3 * air.g ∧ Adm air uA ∧ Adm air uB ∧ uA 0 ≠ uB 0 :=
  ⟨by norm_num [air], adm_uA, adm_uB, by norm_num [uA, uB]⟩

/-! ## C16 for HLLC -/

theorem star_swap (u : St) (n : V2) (vn p ss sm : ℝ) :
    star u (-n) (-vn) p (-ss) (-sm) = star u n vn p ss sm := by
  have h : -ss - -sm = -(ss - sm) := by ring
  have e : ∀ a b : ℝ, a = -b → a / (-ss - -sm) = b / (ss - sm) := by
    intro a b hab; rw [h, hab, neg_div_neg_eq]
  funext i
  fin_cases i <;> simp only [star] <;> refine e _ _ ?_ <;> simp <;> ring

theorem hllcCore_swap {vni vnj pi pj sl sm sr : ℝ} (h1 : sl < sm) (h2 : sm < sr)
    (hn : n 0 * n 0 + n 1 * n 1 = 1) (hul : ul 0 ≠ 0) (hur : ur 0 ≠ 0)
    (hvi : vni = Gas.varsVn ul n) (hvj : vnj = Gas.varsVn ur n) (hsl : sl ≠ vni) (hsr : sr ≠ vnj)
    (hps : ul 0 * (vni - sl) * (vni - sm) + pi = ur 0 * (vnj - sr) * (vnj - sm) + pj) (i : Fin 4) :
    hllcCore ur ul (-n) (-vnj) (-vni) pj pi (-sr) (-sm) (-sl) i = - hllcCore ul ur n vni vnj pi pj sl sm sr i := by
  simp only [hllcCore, star_swap]
  by_cases c1 : 0 < sl
  · have a1 : ¬ (-sr > 0) := by linarith
    have a2 : ¬ (-sr ≤ 0 ∧ -sm > 0) := by intro h; linarith [h.2]
    have a3 : ¬ (-sm ≤ 0 ∧ -sl ≥ 0) := by intro h; linarith [h.2]
    have a4 : sl > 0 := c1
    simp only [a1, a2, a3, a4, if_true, if_false, dirFlux_neg]
  · have c1' : ¬ sl > 0 := c1
    rcases lt_trichotomy sm 0 with c2 | c2 | c2
    · by_cases c3 : sr ≥ 0
      · have a1 : ¬ (-sr > 0) := by linarith
        have a2 : (-sr ≤ 0 ∧ -sm > 0) := ⟨by linarith, by linarith⟩
        have a3 : ¬ (sl ≤ 0 ∧ sm > 0) := by intro h; linarith [h.2]
        have a4 : (sm ≤ 0 ∧ sr ≥ 0) := ⟨c2.le, c3⟩
        rw [if_neg a1, if_pos a2, if_neg c1', if_neg a3, if_pos a4, dirFlux_neg]; ring
      · have a1 : -sr > 0 := by linarith
        have a3 : ¬ (sl ≤ 0 ∧ sm > 0) := by intro h; linarith [h.2]
        have a4 : ¬ (sm ≤ 0 ∧ sr ≥ 0) := by intro h; exact c3 h.2
        rw [if_pos a1, if_neg c1', if_neg a3, if_neg a4, dirFlux_neg]
    · -- both star fluxes are the pressure flux
      subst c2
      have a1 : ¬ (-sr > 0) := by linarith
      have a2 : ¬ (-sr ≤ 0 ∧ -(0:ℝ) > 0) := by intro h; linarith [h.2]
      have a3 : (-(0:ℝ) ≤ 0 ∧ -sl ≥ 0) := ⟨by simp, by linarith⟩
      have a4 : ¬ (sl ≤ 0 ∧ (0:ℝ) > 0) := by intro h; linarith [h.2]
      have a5 : ((0:ℝ) ≤ 0 ∧ sr ≥ 0) := ⟨le_refl _, h2.le⟩
      rw [if_neg a1, if_neg a2, if_pos a3, if_neg c1', if_neg a4, if_pos a5, dirFlux_neg]
      have b1 := (C21_rankine_hugoniot (p := pi) hul hn hvi h1.ne hsl i).2
      have b2 := (C21_rankine_hugoniot (p := pj) hur hn hvj h2.ne' hsr i).2
      rw [hps] at b1
      have b3 : ∀ (w w' : St) (q : ℝ), Gas.dirFlux w n 0 q i = Gas.dirFlux w' n 0 q i := by
        intro w w' q; fin_cases i <;> simp [Gas.dirFlux]
      have b4 := b3 (star ul n vni pi sl 0) (star ur n vnj pj sr 0) (ur 0 * (vnj - sr) * (vnj - 0) + pj)
      linarith
    · have a1 : ¬ (-sr > 0) := by linarith
      have a2 : ¬ (-sr ≤ 0 ∧ -sm > 0) := by intro h; linarith [h.2]
      have a3 : (-sm ≤ 0 ∧ -sl ≥ 0) := ⟨by linarith, by linarith⟩
      have a4 : (sl ≤ 0 ∧ sm > 0) := ⟨not_lt.mp c1, c2⟩
      rw [if_neg a1, if_neg a2, if_pos a3, if_neg c1', if_pos a4, dirFlux_neg]; ring

theorem C16_hllc (hg : 4 ≤ 3 * G.g) (hl : Adm G ul) (hr : Adm G ur)
    (hn : n 0 * n 0 + n 1 * n 1 = 1) (i : Fin 4) :
    hllc G ur ul (-n) i = - hllc G ul ur n i := by
  obtain ⟨e1, e2⟩ := slsr_swap hl hr n
  unfold hllc
  rw [e1, e2, varsVn_neg, varsVn_neg, sm_swap hl hr]
  exact hllcCore_swap (sl_lt_sm hg hl hr) (sm_lt_sr hg hl hr) hn hl.rho' hr.rho' rfl rfl
    (sl_lt_vn hl).ne (vn_lt_sr hr).ne' (C21_star_pressure hl hr n) i

/-- C16: every scheme is conservative under exchange of the sides (`γ ≥ 4/3`, unit normal; these two
hypotheses are used for HLLC only, see the individual theorems). -/
theorem C16_conservative (G : Gas) (ul ur : St) (n : V2) (hg : 4 ≤ 3 * G.g) (hl : Adm G ul)
    (hr : Adm G ur) (hn : n 0 * n 0 + n 1 * n 1 = 1) (s : Scheme) (i : Fin 4) :
    s.flux G ur ul (-n) i = - s.flux G ul ur n i := by
  cases s
  · exact C16_llf hl hr n i
  · exact C16_vanLeer G ul ur n i
  · exact C16_ausm G ul ur n i
  · exact C16_ausmPlus G ul ur n i
  · exact C16_roe hl hr n i
  · exact C16_hll hl hr n i
  · exact C16_hllc hg hl hr hn i

example : 4 ≤ 3 * air.g ∧ Adm air uA ∧ Adm air uB ∧ (![3/5, 4/5] : V2) 0 * (![3/5, 4/5] : V2) 0
    + (![3/5, 4/5] : V2) 1 * (![3/5, 4/5] : V2) 1 = 1 :=
  ⟨by norm_num [air], adm_uA, adm_uB, by norm_num⟩

/-! ## C21: the hypothesis on `γ` cannot be dropped -/

/-- A gas with `γ = 26/25`. -/
noncomputable def lowGas : Gas := ⟨26 / 25, 1 / 2, 300, 1000, 18 / 25⟩
/-- Light, cold gas at rest. -/
noncomputable def uLow : St := ![1, 0, 0, 125 / 104]
/-- Dense gas at rest. -/
noncomputable def uHigh : St := ![16, 0, 0, 5000 / 13]

/-- C21 refuted for ratios of specific heats close to 1: the contact speed is outside the signal
speeds for admissible states of a gas with `γ = 26/25`. -/
theorem C21_low_gamma_refuted : Adm lowGas uLow ∧ Adm lowGas uHigh ∧
    smOf lowGas uLow uHigh ![1, 0] < slOf lowGas uLow uHigh ![1, 0] := by
  have a0 : Adm lowGas uLow := ⟨by norm_num [lowGas], by norm_num [uLow], by
    simp [Gas.pressure, Gas.pressureOfInternal, lowGas, uLow, dot, mom]; norm_num⟩
  have a1 : Adm lowGas uHigh := ⟨by norm_num [lowGas], by norm_num [uHigh], by
    simp [Gas.pressure, Gas.pressureOfInternal, lowGas, uHigh, dot, mom]; norm_num⟩
  have p0 : lowGas.varsP uLow = 5 / 104 := by simp [Gas.varsP, Gas.vel, dot, lowGas, uLow]; norm_num
  have p1 : lowGas.varsP uHigh = 200 / 13 := by simp [Gas.varsP, Gas.vel, dot, lowGas, uHigh]; norm_num
  have s0 : cSide lowGas uLow * cSide lowGas uLow = 1 / 20 := by
    have e := a0.c_sq
    rw [p0, show uLow 0 = 1 from rfl, show lowGas.g = 26 / 25 from rfl] at e
    linarith
  have s1 : cSide lowGas uHigh * cSide lowGas uHigh = 1 := by
    have e := a1.c_sq
    rw [p1, show uHigh 0 = 16 from rfl, show lowGas.g = 26 / 25 from rfl] at e
    linarith
  have k0 := a0.c_pos
  have k1 := a1.c_pos
  have c1 : cSide lowGas uHigh = 1 := by nlinarith
  have v0 : Gas.varsVn uLow ![1, 0] = 0 := by simp [Gas.varsVn, Gas.vel, dot, uLow]
  have v1 : Gas.varsVn uHigh ![1, 0] = 0 := by simp [Gas.varsVn, Gas.vel, dot, uHigh]
  have hR : (roeOf lowGas uLow uHigh ![1, 0]).R = 4 := by
    have : (16 : ℝ) = 4 ^ 2 := by norm_num
    simp [roeOf, roeAvg, uLow, uHigh]; rw [this, Real.sqrt_sq (by norm_num)]
  have hvn : (roeOf lowGas uLow uHigh ![1, 0]).vn = 0 := by rw [roe_vn, hR, v0, v1]; norm_num
  have hcp := roe_c_pos (n := ![1, 0]) a0 a1
  have hc : (roeOf lowGas uLow uHigh ![1, 0]).c = 9 / 10 := by
    have h1 := roe_c_sq (n := ![1, 0]) a0 a1
    have h2 := roe_c_sq_arg (n := ![1, 0]) a0 a1
    simp only at h2
    rw [h2, hR, s0, s1] at h1
    have w : Gas.vel uLow 0 = 0 ∧ Gas.vel uLow 1 = 0 ∧ Gas.vel uHigh 0 = 0 ∧ Gas.vel uHigh 1 = 0 := by
      simp [Gas.vel, uLow, uHigh]
    rw [w.1, w.2.1, w.2.2.1, w.2.2.2] at h1
    norm_num at h1
    nlinarith
  have hlt : cSide lowGas uLow < 9 / 10 := by nlinarith
  have hsl : slOf lowGas uLow uHigh ![1, 0] = -(9 / 10) := by
    simp only [slOf, waveL, v0, hvn, hc]
    rw [if_pos (by linarith)]; norm_num
  have hsr : srOf lowGas uLow uHigh ![1, 0] = 1 := by
    simp only [srOf, waveR, v1, c1, hvn, hc]
    rw [if_neg (by norm_num)]; norm_num
  refine ⟨a0, a1, ?_⟩
  rw [hsl]
  simp only [smOf, contact, v0, v1, p0, p1, hsl, hsr]
  norm_num [uLow, uHigh]

end Flux
end FVENS
