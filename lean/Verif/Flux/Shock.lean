import Verif.Flux.Upwind
import Verif.Flux.Order

/-!
# Stationary shocks (C109)

Two states with the same flux through a face may stand side by side for ever if the gas does not expand abruptly between them. Which flux schemes know this.
-/

namespace FVENS
namespace Flux

variable {G : Gas} {ul ur : St} {n : V2}

/-- A stationary jump across a face: two different states with the same analytical flux through it, and flow through the face from left to right. -/
structure Jump (G : Gas) (ul ur : St) (n : V2) : Prop where
  hl : Adm G ul
  hr : Adm G ur
  unit : n 0 * n 0 + n 1 * n 1 = 1
  flux : G.eulerFlux ul n = G.eulerFlux ur n
  ne : ul ≠ ur
  pos : 0 < Gas.varsVn ul n

namespace Jump
variable (h : Jump G ul ur n)
include h

theorem comp : Gas.varsVn ul n * ul 0 = Gas.varsVn ur n * ur 0 ∧
    Gas.varsVn ul n * ul 1 + G.varsP ul * n 0 = Gas.varsVn ur n * ur 1 + G.varsP ur * n 0 ∧
    Gas.varsVn ul n * ul 2 + G.varsP ul * n 1 = Gas.varsVn ur n * ur 2 + G.varsP ur * n 1 ∧
    Gas.varsVn ul n * (ul 3 + G.varsP ul) = Gas.varsVn ur n * (ur 3 + G.varsP ur) := by
  have e := h.flux
  rw [eulerFlux_eq h.hl.rho', eulerFlux_eq h.hr.rho'] at e
  exact ⟨congrFun e 0, congrFun e 1, congrFun e 2, congrFun e 3⟩

theorem rpos : 0 < Gas.varsVn ur n := by
  have h1 := h.comp.1
  have := mul_pos h.pos h.hl.rho
  rw [h1] at this
  exact (pos_iff_pos_of_mul_pos this).2 h.hr.rho

/-- Momentum across the face. -/
theorem momentum : Gas.varsVn ul n * ul 0 * (Gas.varsVn ul n - Gas.varsVn ur n) = G.varsP ur - G.varsP ul := by
  obtain ⟨c0, c1, c2, -⟩ := h.comp
  have a1 := mom1_eq h.hl.rho'
  have a2 := mom2_eq h.hl.rho'
  have b1 := mom1_eq h.hr.rho'
  have b2 := mom2_eq h.hr.rho'
  have d1 := varsVn_def ul n
  have d2 := varsVn_def ur n
  have hu := h.unit
  have e1 : Gas.varsVn ul n * ul 0 * Gas.vel ul 0 + G.varsP ul * n 0 = Gas.varsVn ul n * ul 0 * Gas.vel ur 0 + G.varsP ur * n 0 := by
    rw [a1, b1] at c1
    linear_combination c1 - Gas.vel ur 0 * c0
  have e2 : Gas.varsVn ul n * ul 0 * Gas.vel ul 1 + G.varsP ul * n 1 = Gas.varsVn ul n * ul 0 * Gas.vel ur 1 + G.varsP ur * n 1 := by
    rw [a2, b2] at c2
    linear_combination c2 - Gas.vel ur 1 * c0
  rw [d1, d2] at *
  linear_combination n 0 * e1 + n 1 * e2 + (G.varsP ur - G.varsP ul) * hu

/-- No jump of the velocity along the face. -/
theorem tangential : Gas.vel ul 0 * n 1 - Gas.vel ul 1 * n 0 = Gas.vel ur 0 * n 1 - Gas.vel ur 1 * n 0 := by
  obtain ⟨c0, c1, c2, -⟩ := h.comp
  have a1 := mom1_eq h.hl.rho'
  have a2 := mom2_eq h.hl.rho'
  have b1 := mom1_eq h.hr.rho'
  have b2 := mom2_eq h.hr.rho'
  have hm := mul_pos h.pos h.hl.rho
  rw [a1, b1] at c1
  rw [a2, b2] at c2
  refine mul_left_cancel₀ hm.ne' ?_
  linear_combination n 1 * c1 - n 0 * c2 + (Gas.vel ur 1 * n 0 - Gas.vel ur 0 * n 1) * c0

theorem enthalpy : G.varsH ul = G.varsH ur := by
  obtain ⟨c0, -, -, c3⟩ := h.comp
  have hm := mul_pos h.pos h.hl.rho
  refine mul_left_cancel₀ hm.ne' ?_
  have a := varsH_eq (G := G) h.hl.rho'
  have b := varsH_eq (G := G) h.hr.rho'
  linear_combination c3 + Gas.varsVn ul n * a - Gas.varsVn ur n * b - G.varsH ur * c0

omit h in
theorem speed_sq (hu : n 0 * n 0 + n 1 * n 1 = 1) (u : St) : Gas.vel u 0 * Gas.vel u 0 + Gas.vel u 1 * Gas.vel u 1 =
    Gas.varsVn u n * Gas.varsVn u n + (Gas.vel u 0 * n 1 - Gas.vel u 1 * n 0) * (Gas.vel u 0 * n 1 - Gas.vel u 1 * n 0) := by
  rw [varsVn_def]
  linear_combination -(Gas.vel u 0 * Gas.vel u 0 + Gas.vel u 1 * Gas.vel u 1) * hu

omit h in
theorem enthalpy_c {u : St} (hu : Adm G u) : (G.g - 1) * G.varsH u = cSide G u * cSide G u + (G.g - 1) / 2 * (Gas.vel u 0 * Gas.vel u 0 + Gas.vel u 1 * Gas.vel u 1) := by
  have hg : G.g - 1 ≠ 0 := by linarith [hu.g1]
  have h1 := hu.c_sq
  have h2 := energy_eq hu
  have h3 := hu.rho'
  simp only [Gas.varsH]
  rw [h2]
  field_simp
  linear_combination (-2 : ℝ) * h1

/-- The normal velocities differ. -/
theorem vne : Gas.varsVn ul n ≠ Gas.varsVn ur n := by
  intro e
  obtain ⟨c0, -⟩ := h.comp
  have hm := h.momentum
  have ht := h.tangential
  have hu := h.unit
  have hp : G.varsP ul = G.varsP ur := by rw [e] at hm; linarith
  have hr : ul 0 = ur 0 := by rw [e] at c0; exact mul_left_cancel₀ h.rpos.ne' c0
  have d1 := varsVn_def ul n
  have d2 := varsVn_def ur n
  have v0 : Gas.vel ul 0 = Gas.vel ur 0 := by
    linear_combination n 0 * (e - d1 + d2) + n 1 * ht - (Gas.vel ul 0 - Gas.vel ur 0) * hu
  have v1 : Gas.vel ul 1 = Gas.vel ur 1 := by
    linear_combination n 1 * (e - d1 + d2) - n 0 * ht - (Gas.vel ul 1 - Gas.vel ur 1) * hu
  refine h.ne ?_
  funext i
  fin_cases i
  · exact hr
  · show ul 1 = ur 1
    rw [mom1_eq h.hl.rho', mom1_eq h.hr.rho', hr, v0]
  · show ul 2 = ur 2
    rw [mom2_eq h.hl.rho', mom2_eq h.hr.rho', hr, v1]
  · show ul 3 = ur 3
    rw [energy_eq h.hl, energy_eq h.hr, hp, hr, v0, v1]

/-- Prandtl's relation: sound speeds and normal velocities. -/
theorem prandtl : 2 * (cSide G ul * cSide G ul) + (G.g - 1) * (Gas.varsVn ul n * Gas.varsVn ul n) = (G.g + 1) * (Gas.varsVn ul n * Gas.varsVn ur n) ∧
    2 * (cSide G ur * cSide G ur) + (G.g - 1) * (Gas.varsVn ur n * Gas.varsVn ur n) = (G.g + 1) * (Gas.varsVn ul n * Gas.varsVn ur n) := by
  obtain ⟨c0, -⟩ := h.comp
  have hm := h.momentum
  have hH := h.enthalpy
  have ht := h.tangential
  have a := enthalpy_c h.hl
  have b := enthalpy_c h.hr
  have sa := h.hl.c_sq
  have sb := h.hr.c_sq
  rw [speed_sq h.unit ul] at a
  rw [speed_sq h.unit ur, ← ht, ← hH] at b
  have hd := sub_ne_zero.2 h.vne
  have hr := h.hr.rho'
  have hrl := h.hl.rho'
  have hg : 1 < G.g := h.hl.g1
  have hvl := h.pos
  have hvr := h.rpos
  generalize hx : Gas.varsVn ul n = x at *
  generalize hy : Gas.varsVn ur n = y at *
  generalize cSide G ul * cSide G ul = A at *
  generalize cSide G ur * cSide G ur = B at *
  -- A - B = (γ-1)/2 (y² - x²), and γ m (x - y) = B ρr - A ρl
  have e1 : A - B = (G.g - 1) / 2 * (y * y - x * x) := by linear_combination b - a
  have e2 : G.g * (x * ul 0) * (x - y) = B * ur 0 - A * ul 0 := by linear_combination G.g * hm - sb + sa
  have e3 : (G.g * x * y * (x - y)) = B * x - A * y := by
    refine mul_left_cancel₀ hrl ?_
    linear_combination y * e2 - B * c0
  have key : (x - y) * (2 * A + (G.g - 1) * (x * x) - (G.g + 1) * (x * y)) = 0 := by
    linear_combination (-2 : ℝ) * e3 + 2 * x * e1
  have k1 : 2 * A + (G.g - 1) * (x * x) = (G.g + 1) * (x * y) := by
    rcases mul_eq_zero.1 key with k | k
    · exact absurd k hd
    · linarith
  exact ⟨k1, by linear_combination k1 - 2 * e1⟩

/-- The flow is supersonic in front of a stationary jump exactly if it is compressed. -/
theorem compressed_iff : cSide G ul < Gas.varsVn ul n ↔ Gas.varsVn ur n < Gas.varsVn ul n := by
  have hp := h.prandtl.1
  have hc := h.hl.c_pos
  have hg := h.hl.g1
  have hl := h.pos
  constructor
  · intro k
    have : cSide G ul * cSide G ul < Gas.varsVn ul n * Gas.varsVn ul n := mul_lt_mul'' k k hc.le hc.le
    by_contra hy
    nlinarith [mul_le_mul_of_nonneg_left (not_lt.1 hy) hl.le]
  · intro k
    by_contra hy
    have : Gas.varsVn ul n * Gas.varsVn ul n ≤ cSide G ul * cSide G ul := mul_self_le_mul_self hl.le (not_lt.1 hy)
    nlinarith [mul_lt_mul_of_pos_left k hl]

/-- The first wave speed of Roe's average vanishes. -/
theorem roe_speed : (roeOf G ul ur n).vn = (roeOf G ul ur n).c ∧ (roeOf G ul ur n).vn * (roeOf G ul ur n).vn = Gas.varsVn ul n * Gas.varsVn ur n := by
  obtain ⟨c0, -⟩ := h.comp
  have hR := roe_R_pos (G := G) (n := n) h.hl.rho h.hr.rho
  have hR2 := roe_R_sq (G := G) (n := n) h.hl.rho h.hr.rho
  have hvn : (roeOf G ul ur n).vn = ((roeOf G ul ur n).R * Gas.varsVn ur n + Gas.varsVn ul n) / ((roeOf G ul ur n).R + 1) := by
    simp only [roeOf, roeAvg, dot, varsVn_def]
    simp
    ring
  have hvt : ∀ x y, x = ((roeOf G ul ur n).R * Gas.vel ur 0 + Gas.vel ul 0) / ((roeOf G ul ur n).R + 1) → y = ((roeOf G ul ur n).R * Gas.vel ur 1 + Gas.vel ul 1) / ((roeOf G ul ur n).R + 1) →
      x * n 1 - y * n 0 = Gas.vel ul 0 * n 1 - Gas.vel ul 1 * n 0 := by
    rintro x y rfl rfl
    have ht := h.tangential
    field_simp
    linear_combination -(roeOf G ul ur n).R * ht
  have hHa : (roeOf G ul ur n).H = G.varsH ul := by
    show ((roeOf G ul ur n).R * G.varsH ur + G.varsH ul) / ((roeOf G ul ur n).R + 1) = _
    rw [← h.enthalpy]; field_simp
  have hvm : (roeOf G ul ur n).vm2 = (roeOf G ul ur n).vn * (roeOf G ul ur n).vn + (Gas.vel ul 0 * n 1 - Gas.vel ul 1 * n 0) * (Gas.vel ul 0 * n 1 - Gas.vel ul 1 * n 0) := by
    rw [← hvt _ _ rfl rfl]
    have hu := h.unit
    show dot (roeOf G ul ur n).v (roeOf G ul ur n).v = dot (roeOf G ul ur n).v n * dot (roeOf G ul ur n).v n + _
    have e0 : (roeOf G ul ur n).v 0 = ((roeOf G ul ur n).R * Gas.vel ur 0 + Gas.vel ul 0) / ((roeOf G ul ur n).R + 1) := rfl
    have e1 : (roeOf G ul ur n).v 1 = ((roeOf G ul ur n).R * Gas.vel ur 1 + Gas.vel ul 1) / ((roeOf G ul ur n).R + 1) := rfl
    rw [← e0, ← e1]
    simp only [dot]
    linear_combination -((roeOf G ul ur n).v 0 * (roeOf G ul ur n).v 0 + (roeOf G ul ur n).v 1 * (roeOf G ul ur n).v 1) * hu
  have hx : Gas.varsVn ul n = (roeOf G ul ur n).R * (roeOf G ul ur n).R * Gas.varsVn ur n := by
    refine mul_right_cancel₀ h.hl.rho' ?_
    rw [c0]
    linear_combination -Gas.varsVn ur n * hR2
  have hv : (roeOf G ul ur n).vn = (roeOf G ul ur n).R * Gas.varsVn ur n := by
    rw [hvn, hx]; field_simp; ring
  have hsq : (roeOf G ul ur n).vn * (roeOf G ul ur n).vn = Gas.varsVn ul n * Gas.varsVn ur n := by
    rw [hv, hx]; ring
  refine ⟨?_, hsq⟩
  have hpos : 0 < (roeOf G ul ur n).vn := by rw [hv]; exact mul_pos hR h.rpos
  have hc := roe_c_pos (n := n) h.hl h.hr
  have hc2 := roe_c_sq (n := n) h.hl h.hr
  have a := enthalpy_c h.hl
  rw [speed_sq h.unit ul] at a
  have hp := h.prandtl.1
  rw [hHa, hvm] at hc2
  refine (mul_self_inj hpos.le hc.le).1 ?_
  rw [hc2]
  linear_combination (G.g + 1) / 2 * hsq - 1 / 2 * hp - a

/-- Strengths of the waves of Roe's average: only the first does not vanish. -/
theorem waves : (roeOf G ul ur n).rho * (roeOf G ul ur n).c = Gas.varsVn ul n * ul 0 ∧
    G.varsP ur - G.varsP ul = (roeOf G ul ur n).c * (roeOf G ul ur n).c * (ur 0 - ul 0) := by
  obtain ⟨c0, -⟩ := h.comp
  obtain ⟨e1, e2⟩ := h.roe_speed
  have hR := roe_R_pos (G := G) (n := n) h.hl.rho h.hr.rho
  have hR2 := roe_R_sq (G := G) (n := n) h.hl.rho h.hr.rho
  have hm := h.momentum
  have hx : Gas.varsVn ul n = (roeOf G ul ur n).R * (roeOf G ul ur n).R * Gas.varsVn ur n := by
    refine mul_right_cancel₀ h.hl.rho' ?_
    rw [c0]
    linear_combination -Gas.varsVn ur n * hR2
  have hc : (roeOf G ul ur n).c = (roeOf G ul ur n).R * Gas.varsVn ur n := by
    have hpos := roe_c_pos (n := n) h.hl h.hr
    refine (mul_self_inj hpos.le (mul_pos hR h.rpos).le).1 ?_
    rw [← e1, e2, hx]; ring
  constructor
  · show (roeOf G ul ur n).R * ul 0 * (roeOf G ul ur n).c = _
    rw [hc, hx]; ring
  · rw [← hm, ← e1, e2]
    linear_combination Gas.varsVn ul n * c0

/-- Velocities in terms of their normal and tangential parts. -/
theorem vels : (roeOf G ul ur n).v 0 - (roeOf G ul ur n).c * n 0 = (Gas.vel ul 0 * n 1 - Gas.vel ul 1 * n 0) * n 1 ∧
    (roeOf G ul ur n).v 1 - (roeOf G ul ur n).c * n 1 = -(Gas.vel ul 0 * n 1 - Gas.vel ul 1 * n 0) * n 0 := by
  have hR := roe_R_pos (G := G) (n := n) h.hl.rho h.hr.rho
  have ht := h.tangential
  have hu := h.unit
  have e0 : (roeOf G ul ur n).v 0 = ((roeOf G ul ur n).R * Gas.vel ur 0 + Gas.vel ul 0) / ((roeOf G ul ur n).R + 1) := rfl
  have e1 : (roeOf G ul ur n).v 1 = ((roeOf G ul ur n).R * Gas.vel ur 1 + Gas.vel ul 1) / ((roeOf G ul ur n).R + 1) := rfl
  have hvt : (roeOf G ul ur n).v 0 * n 1 - (roeOf G ul ur n).v 1 * n 0 = Gas.vel ul 0 * n 1 - Gas.vel ul 1 * n 0 := by
    rw [e0, e1]
    field_simp
    linear_combination -(roeOf G ul ur n).R * ht
  have hvn : (roeOf G ul ur n).c = (roeOf G ul ur n).v 0 * n 0 + (roeOf G ul ur n).v 1 * n 1 := h.roe_speed.1.symm
  rw [← hvt, hvn]
  exact ⟨by linear_combination -(roeOf G ul ur n).v 0 * hu, by linear_combination -(roeOf G ul ur n).v 1 * hu⟩

/-- Jumps of the conserved variables. -/
theorem jumps : ur 1 - ul 1 = (ur 0 - ul 0) * ((roeOf G ul ur n).v 0 - (roeOf G ul ur n).c * n 0) ∧
    ur 2 - ul 2 = (ur 0 - ul 0) * ((roeOf G ul ur n).v 1 - (roeOf G ul ur n).c * n 1) ∧
    ur 3 - ul 3 = (ur 0 - ul 0) * ((roeOf G ul ur n).H - (roeOf G ul ur n).c * (roeOf G ul ur n).vn) := by
  obtain ⟨c0, -⟩ := h.comp
  have ht := h.tangential
  have hu := h.unit
  obtain ⟨w1, w2⟩ := h.waves
  have hR := roe_R_pos (G := G) (n := n) h.hl.rho h.hr.rho
  rw [h.vels.1, h.vels.2, h.roe_speed.1]
  have hHa : (roeOf G ul ur n).H = G.varsH ul := by
    show ((roeOf G ul ur n).R * G.varsH ur + G.varsH ul) / ((roeOf G ul ur n).R + 1) = _
    rw [← h.enthalpy]; field_simp
  have a := varsH_eq (G := G) h.hl.rho'
  have b := varsH_eq (G := G) h.hr.rho'
  rw [← h.enthalpy] at b
  have d1 := varsVn_def ul n
  have d2 := varsVn_def ur n
  refine ⟨?_, ?_, ?_⟩
  · rw [mom1_eq h.hl.rho', mom1_eq h.hr.rho']
    linear_combination (-n 0) * c0 + ur 0 * (-n 1) * ht + n 0 * ul 0 * d1 - n 0 * ur 0 * d2 + (ul 0 * Gas.vel ul 0 - ur 0 * Gas.vel ur 0) * hu
  · rw [mom2_eq h.hl.rho', mom2_eq h.hr.rho']
    linear_combination (-n 1) * c0 + ur 0 * n 0 * ht + n 1 * ul 0 * d1 - n 1 * ur 0 * d2 + (ul 0 * Gas.vel ul 1 - ur 0 * Gas.vel ur 1) * hu
  · rw [hHa]
    linear_combination a - b - w2

theorem rho_ne : ur 0 - ul 0 ≠ 0 := by
  intro e
  obtain ⟨c0, -⟩ := h.comp
  rw [sub_eq_zero.1 e] at c0
  exact h.vne (mul_right_cancel₀ h.hl.rho' c0)

theorem sl_eq : slOf G ul ur n = if cSide G ul < Gas.varsVn ul n then 0 else Gas.varsVn ul n - cSide G ul := by
  unfold slOf waveL
  rw [h.roe_speed.1, sub_self]
  by_cases hc : cSide G ul < Gas.varsVn ul n
  · rw [if_pos hc, if_pos (by linarith)]
  · rw [if_neg hc, if_neg (by linarith)]

theorem sr_pos : 0 < srOf G ul ur n := by
  unfold srOf waveR
  have := h.rpos
  have := h.hr.c_pos
  have := roe_c_pos (n := n) h.hl h.hr
  rw [h.roe_speed.1]
  split_ifs <;> linarith

end Jump

/-! ### Which schemes keep them -/

/-- C109: HLL keeps a stationary jump exactly if the flow in front of it is supersonic, that is, keeps shocks and does not keep expansion shocks. -/
theorem C109_hll (h : Jump G ul ur n) : hll G ul ur n = G.eulerFlux ul n ↔ cSide G ul < Gas.varsVn ul n := by
  have hsl := h.sl_eq
  have hsr := h.sr_pos
  rw [eulerFlux_eq h.hl.rho']
  have hH := varsH_eq (G := G) h.hl.rho'
  obtain ⟨c0, c1, c2, c3⟩ := h.comp
  constructor
  · intro e
    by_contra hc
    rw [if_neg hc] at hsl
    have hle : slOf G ul ur n ≤ 0 := by rw [hsl]; linarith
    have hne : slOf G ul ur n ≠ 0 := by
      rw [hsl]
      intro h0
      have hp := h.prandtl.1
      have h1 : cSide G ul = Gas.varsVn ul n := by linarith
      rw [h1] at hp
      have : (G.g + 1) * (Gas.varsVn ul n * (Gas.varsVn ul n - Gas.varsVn ur n)) = 0 := by linear_combination hp
      have hg : G.g + 1 ≠ 0 := by linarith [h.hl.g1]
      rcases mul_eq_zero.1 this with k | k
      · exact hg k
      · rcases mul_eq_zero.1 k with k | k
        · exact h.pos.ne' k
        · exact h.vne (by linarith)
    have hlt : slOf G ul ur n < 0 := lt_of_le_of_ne hle hne
    have e0 := congrFun e 0
    simp only [hll, hllCore, Gas.dirFlux, hllT1, hllT3, Matrix.cons_val_zero, if_pos hsr, if_neg (not_lt.2 hle), abs_of_pos hsr, abs_of_neg hlt] at e0
    have hd : srOf G ul ur n - slOf G ul ur n ≠ 0 := by linarith
    have e1 : srOf G ul ur n * slOf G ul ur n * (ur 0 - ul 0) = 0 := by
      rw [mul_assoc, mul_assoc, ← c0] at e0
      field_simp at e0
      linear_combination 1 / 2 * e0
    have := h.rho_ne
    rcases mul_eq_zero.1 e1 with k | k
    · rcases mul_eq_zero.1 k with k | k
      · exact hsr.ne' k
      · exact hne k
    · exact this k
  · intro hc
    rw [if_pos hc] at hsl
    funext i
    fin_cases i <;> simp [hll, hllCore, Gas.dirFlux, hllT1, hllT3, hsl, hsr]
    rw [← hH]; ring

theorem Jump.sm (h : Jump G ul ur n) : smOf G ul ur n * (ur 0 * srOf G ul ur n - ul 0 * slOf G ul ur n) = Gas.varsVn ul n * ul 0 * (srOf G ul ur n - slOf G ul ur n) ∧
    0 < smOf G ul ur n ∧ slOf G ul ur n < smOf G ul ur n := by
  obtain ⟨c0, -⟩ := h.comp
  have hm := h.momentum
  have hsl := h.sl_eq
  have hsr := h.sr_pos
  have hle : slOf G ul ur n ≤ 0 := by rw [hsl]; split_ifs with hc <;> linarith
  have hd : 0 < ur 0 * srOf G ul ur n - ul 0 * slOf G ul ur n := by nlinarith [mul_pos h.hr.rho hsr, h.hl.rho]
  have e : smOf G ul ur n = Gas.varsVn ul n * ul 0 * (srOf G ul ur n - slOf G ul ur n) / (ur 0 * srOf G ul ur n - ul 0 * slOf G ul ur n) := by
    unfold smOf contact
    rw [show ur 0 * (srOf G ul ur n - Gas.varsVn ur n) - ul 0 * (slOf G ul ur n - Gas.varsVn ul n) = ur 0 * srOf G ul ur n - ul 0 * slOf G ul ur n by linear_combination c0]
    congr 1
    linear_combination (Gas.varsVn ur n - srOf G ul ur n) * c0 + hm
  have hpos : 0 < smOf G ul ur n := by
    rw [e]
    exact div_pos (mul_pos (mul_pos h.pos h.hl.rho) (by linarith)) hd
  exact ⟨by rw [e, div_mul_cancel₀ _ hd.ne'], hpos, by linarith⟩

/-- C109: so does HLLC. -/
theorem C109_hllc (h : Jump G ul ur n) : hllc G ul ur n = G.eulerFlux ul n ↔ cSide G ul < Gas.varsVn ul n := by
  obtain ⟨s1, s2, s3⟩ := h.sm
  have hsl := h.sl_eq
  have hsr := h.sr_pos
  rw [eulerFlux_eq h.hl.rho']
  have hle : slOf G ul ur n ≤ 0 := by rw [hsl]; split_ifs with hc <;> linarith
  have e : hllc G ul ur n = fun i => Gas.dirFlux ul n (Gas.varsVn ul n) (G.varsP ul) i +
      slOf G ul ur n * (star ul n (Gas.varsVn ul n) (G.varsP ul) (slOf G ul ur n) (smOf G ul ur n) i - ul i) := by
    unfold hllc hllcCore
    rw [if_neg (not_lt.2 hle), if_pos ⟨hle, s2⟩]
  rw [e]
  constructor
  · intro k
    by_contra hc
    rw [if_neg hc] at hsl
    have k0 := congrFun k 0
    have hd : slOf G ul ur n - smOf G ul ur n ≠ 0 := by linarith
    have k1 : slOf G ul ur n * (ul 0 * (smOf G ul ur n - Gas.varsVn ul n)) = 0 := by
      simp only [star, Matrix.cons_val_zero] at k0
      have k2 : slOf G ul ur n * (ul 0 * (slOf G ul ur n - Gas.varsVn ul n) / (slOf G ul ur n - smOf G ul ur n) - ul 0) = 0 := by linarith
      field_simp at k2
      linear_combination k2
    have hne : slOf G ul ur n ≠ 0 := by
      rw [hsl]
      intro h0
      have hp := h.prandtl.1
      have h1 : cSide G ul = Gas.varsVn ul n := by linarith
      rw [h1] at hp
      have : (G.g + 1) * (Gas.varsVn ul n * (Gas.varsVn ul n - Gas.varsVn ur n)) = 0 := by linear_combination hp
      have hg : G.g + 1 ≠ 0 := by linarith [h.hl.g1]
      rcases mul_eq_zero.1 this with k | k
      · exact hg k
      · rcases mul_eq_zero.1 k with k | k
        · exact h.pos.ne' k
        · exact h.vne (by linarith)
    have h2 : smOf G ul ur n = Gas.varsVn ul n := by
      rcases mul_eq_zero.1 k1 with k | k
      · exact absurd k hne
      · rcases mul_eq_zero.1 k with k | k
        · exact absurd k h.hl.rho'
        · linarith
    rw [h2] at s1
    have : Gas.varsVn ul n * srOf G ul ur n * (ur 0 - ul 0) = 0 := by linear_combination s1
    rcases mul_eq_zero.1 this with k | k
    · exact (mul_pos h.pos hsr).ne' k
    · exact h.rho_ne k
  · intro hc
    rw [if_pos hc] at hsl
    funext i
    simp [hsl]

/-- C109: Roe's flux differs from the exact one at every stationary jump, by the width of its entropy fix. -/
theorem C109_roe (h : Jump G ul ur n) : roe G ul ur n = fun i => G.eulerFlux ul n i - (roeOf G ul ur n).c / 40000 * (ur i - ul i) := by
  have hfix : (roeOf G ul ur n).c / 40000 = fixeps * (roeOf G ul ur n).c / 4 := by norm_num [fixeps]; ring
  simp only [hfix]
  obtain ⟨c0, c1, c2, c3⟩ := h.comp
  obtain ⟨w1, w2⟩ := h.waves
  obtain ⟨j1, j2, j3⟩ := h.jumps
  have hm := h.momentum
  have hc := roe_c_pos (n := n) h.hl h.hr
  have hf : 0 < fixeps := by norm_num [fixeps]
  have hspeed := h.roe_speed.1
  have l0 : roeL (roeOf G ul ur n) 0 = fixeps * (roeOf G ul ur n).c / 2 := by
    have : roeL0 (roeOf G ul ur n) 0 = 0 := by simp [roeL0, hspeed]
    unfold roeL harten
    rw [this, if_pos (mul_pos hf hc)]
    field_simp
    ring
  have hla0 : roeLA (roeOf G ul ur n) (roeL (roeOf G ul ur n)) (G.varsP ur - G.varsP ul) (Gas.varsVn ur n - Gas.varsVn ul n) (ur 0 - ul 0) 0 =
      fixeps * (roeOf G ul ur n).c / 2 * (ur 0 - ul 0) := by
    simp only [roeLA, Matrix.cons_val_zero, l0]
    rw [w1, show G.varsP ur - G.varsP ul - Gas.varsVn ul n * ul 0 * (Gas.varsVn ur n - Gas.varsVn ul n) = 2 * ((roeOf G ul ur n).c * (roeOf G ul ur n).c * (ur 0 - ul 0)) by
      linear_combination hm + 2 * w2]
    field_simp
  have hla1 : roeLA (roeOf G ul ur n) (roeL (roeOf G ul ur n)) (G.varsP ur - G.varsP ul) (Gas.varsVn ur n - Gas.varsVn ul n) (ur 0 - ul 0) 1 = 0 := by
    simp only [roeLA, Matrix.cons_val_one, Matrix.cons_val_zero]
    rw [w2]; field_simp; simp
  have hla3 : roeLA (roeOf G ul ur n) (roeL (roeOf G ul ur n)) (G.varsP ur - G.varsP ul) (Gas.varsVn ur n - Gas.varsVn ul n) (ur 0 - ul 0) 3 = 0 := by
    show roeL (roeOf G ul ur n) 3 * (G.varsP ur - G.varsP ul + (roeOf G ul ur n).rho * (roeOf G ul ur n).c * (Gas.varsVn ur n - Gas.varsVn ul n)) /
      (2 * (roeOf G ul ur n).c * (roeOf G ul ur n).c) = 0
    rw [w1, show G.varsP ur - G.varsP ul + Gas.varsVn ul n * ul 0 * (Gas.varsVn ur n - Gas.varsVn ul n) = 0 by linear_combination -hm]
    simp
  have ht := h.tangential
  have hu := h.unit
  have d1 := varsVn_def ul n
  have d2 := varsVn_def ur n
  have t0 : Gas.vel ur 0 - Gas.vel ul 0 - (Gas.varsVn ur n - Gas.varsVn ul n) * n 0 = 0 := by
    rw [d1, d2]; linear_combination -n 1 * ht + (Gas.vel ul 0 - Gas.vel ur 0) * hu
  have t1 : Gas.vel ur 1 - Gas.vel ul 1 - (Gas.varsVn ur n - Gas.varsVn ul n) * n 1 = 0 := by
    rw [d1, d2]; linear_combination n 0 * ht + (Gas.vel ul 1 - Gas.vel ur 1) * hu
  have t2 : (roeOf G ul ur n).v 0 * (Gas.vel ur 0 - Gas.vel ul 0) + (roeOf G ul ur n).v 1 * (Gas.vel ur 1 - Gas.vel ul 1) -
      (roeOf G ul ur n).vn * (Gas.varsVn ur n - Gas.varsVn ul n) = 0 := by
    have : (roeOf G ul ur n).vn = (roeOf G ul ur n).v 0 * n 0 + (roeOf G ul ur n).v 1 * n 1 := rfl
    rw [this]
    linear_combination (roeOf G ul ur n).v 0 * t0 + (roeOf G ul ur n).v 1 * t1
  rw [eulerFlux_eq h.hl.rho']
  funext i
  simp only [roe]
  fin_cases i
  · simp only [roeADU, hla0, hla1, hla3, Gas.dirFlux]
    simp
    linear_combination -1 / 2 * c0
  · simp only [roeADU, hla0, hla1, hla3, Gas.dirFlux]
    simp
    rw [t0, j1]
    linear_combination -1 / 2 * c1
  · simp only [roeADU, hla0, hla1, hla3, Gas.dirFlux]
    simp
    rw [t1, j2]
    linear_combination -1 / 2 * c2
  · simp only [roeADU, hla0, hla1, hla3, Gas.dirFlux]
    simp
    rw [t2, j3]
    linear_combination -1 / 2 * c3

/-- Behind a shock the flow is slower than sound. -/
theorem Jump.behind (h : Jump G ul ur n) (hc : cSide G ul < Gas.varsVn ul n) : Gas.varsVn ur n < cSide G ur := by
  have hlt := h.compressed_iff.1 hc
  have hp := h.prandtl.2
  have := h.hr.c_pos
  have hg := h.hl.g1
  have hr := h.rpos
  by_contra hn
  push Not at hn
  nlinarith [mul_self_le_mul_self this.le hn, mul_pos hr (sub_pos.2 hlt), mul_pos (mul_pos hr (sub_pos.2 hlt)) (show (0:ℝ) < G.g + 1 by linarith)]

/-- C109: local Lax–Friedrichs keeps no stationary jump. -/
theorem C109_llf (h : Jump G ul ur n) : llf G ul ur n ≠ G.eulerFlux ul n := by
  intro e
  have e0 := congrFun e 0
  have c0 := congrFun h.flux 0
  have hE : 0 < llfEig (Gas.varsVn ul n) (cSide G ul) (Gas.varsVn ur n) (cSide G ur) := by
    unfold llfEig
    have := h.hl.c_pos
    have := h.hr.c_pos
    have := abs_nonneg (Gas.varsVn ul n)
    have := abs_nonneg (Gas.varsVn ur n)
    split_ifs <;> linarith
  simp only [llf] at e0
  have : llfEig (Gas.varsVn ul n) (cSide G ul) (Gas.varsVn ur n) (cSide G ur) * (ur 0 - ul 0) = 0 := by
    linear_combination -2 * e0 - c0
  exact (mul_ne_zero hE.ne' h.rho_ne) this

/-- C109: van Leer's flux keeps no shock: mass leaks back from behind it. -/
theorem C109_vanLeer (h : Jump G ul ur n) (hc : cSide G ul < Gas.varsVn ul n) : vanLeer G ul ur n ≠ G.eulerFlux ul n := by
  intro e
  have e0 := congrFun e 0
  have hb := h.behind hc
  have cl := h.hl.c_pos
  have cr := h.hr.c_pos
  have hM : Gas.varsVn ul n / cSide G ul > 1 := (one_lt_div cl).2 hc
  have hMr : Gas.varsVn ur n / cSide G ur < 1 := (div_lt_one cr).2 hb
  have hMp : 0 < Gas.varsVn ur n / cSide G ur := div_pos h.rpos cr
  rw [eulerFlux_eq h.hl.rho'] at e0
  simp only [vanLeer, vlPlus, vlMinus, if_neg (show ¬ Gas.varsVn ul n / cSide G ul < -1 by linarith), if_pos hM,
    if_neg (show ¬ Gas.varsVn ur n / cSide G ur > 1 by linarith), if_neg (show ¬ Gas.varsVn ur n / cSide G ur < -1 by linarith), Matrix.cons_val_zero] at e0
  have : ur 0 * cSide G ur * (Gas.varsVn ur n / cSide G ur - 1) ^ 2 = 0 := by linarith
  exact (mul_ne_zero (mul_ne_zero h.hr.rho' cr.ne') (pow_ne_zero 2 (by linarith))) this

/-- C109: nor does AUSM. -/
theorem C109_ausm (h : Jump G ul ur n) (hc : cSide G ul < Gas.varsVn ul n) : ausm G ul ur n ≠ G.eulerFlux ul n := by
  intro e
  have e0 := congrFun e 0
  have hb := h.behind hc
  have cl := h.hl.c_pos
  have cr := h.hr.c_pos
  have hM : 1 < Gas.varsVn ul n / cSide G ul := (one_lt_div cl).2 hc
  have hMr : Gas.varsVn ur n / cSide G ur < 1 := (div_lt_one cr).2 hb
  have hMp : 0 < Gas.varsVn ur n / cSide G ur := div_pos h.rpos cr
  have d : Gas.varsVn ul n / cSide G ul * cSide G ul = Gas.varsVn ul n := by field_simp
  have hm := mul_pos h.pos h.hl.rho
  have pl := mul_pos h.hl.rho cl
  have pr := mul_pos h.hr.rho cr
  rw [eulerFlux_eq h.hl.rho'] at e0
  simp only [ausm, ausmCore, Gas.dirFlux, Matrix.cons_val_zero] at e0
  have m1 : ausmML (Gas.varsVn ul n / cSide G ul) = Gas.varsVn ul n / cSide G ul := by
    unfold ausmML
    rw [if_neg (by rw [abs_of_pos (by linarith)]; linarith), if_neg (by linarith)]
  have m2 : ausmMR (Gas.varsVn ur n / cSide G ur) < 0 := by
    unfold ausmMR
    rw [if_pos (by rw [abs_of_pos hMp]; linarith)]
    nlinarith [mul_pos (sub_pos.2 hMr) (sub_pos.2 hMr)]
  rw [m1] at e0
  generalize ausmMR (Gas.varsVn ur n / cSide G ur) = y at e0 m2
  generalize Gas.varsVn ul n / cSide G ul = x at e0 hM d
  rcases le_total 0 (x + y) with k | k
  · rw [abs_of_nonneg k] at e0
    have : ul 0 * cSide G ul * y = 0 := by rw [← d] at e0; linear_combination e0
    exact (mul_ne_zero pl.ne' m2.ne) this
  · rw [abs_of_nonpos k] at e0
    nlinarith

theorem critC_eq {u : St} (hu : Adm G u) : (G.g + 1) * (critC G.g (cSide G u) (dot (Gas.vel u) (Gas.vel u)) * critC G.g (cSide G u) (dot (Gas.vel u) (Gas.vel u))) =
    2 * ((G.g - 1) * G.varsH u) ∧ 0 < critC G.g (cSide G u) (dot (Gas.vel u) (Gas.vel u)) := by
  have hg : 0 < G.g - 1 := by linarith [hu.g1]
  have hg2 : 0 < G.g + 1 := by linarith [hu.g1]
  have hc := hu.c_pos
  have h0 : 0 ≤ dot (Gas.vel u) (Gas.vel u) := add_nonneg (mul_self_nonneg _) (mul_self_nonneg _)
  have hp : 0 < (cSide G u * cSide G u / (G.g - 1) + 1 / 2 * dot (Gas.vel u) (Gas.vel u)) * 2 * (G.g - 1) / (G.g + 1) := by positivity
  refine ⟨?_, Real.sqrt_pos.2 hp⟩
  unfold critC
  rw [Real.mul_self_sqrt hp.le, Jump.enthalpy_c hu]
  simp only [dot]
  field_simp

/-- The critical speed of sound of both sides, from Prandtl's relation. -/
theorem Jump.crit (h : Jump G ul ur n) : ∃ s, 0 < s ∧ critC G.g (cSide G ul) (dot (Gas.vel ul) (Gas.vel ul)) = s ∧
    critC G.g (cSide G ur) (dot (Gas.vel ur) (Gas.vel ur)) = s ∧
    (G.g + 1) * (s * s) = (G.g + 1) * (Gas.varsVn ul n * Gas.varsVn ur n) + (G.g - 1) * ((Gas.vel ul 0 * n 1 - Gas.vel ul 1 * n 0) * (Gas.vel ul 0 * n 1 - Gas.vel ul 1 * n 0)) := by
  obtain ⟨a1, a2⟩ := critC_eq h.hl
  obtain ⟨b1, b2⟩ := critC_eq h.hr
  have hg2 : G.g + 1 ≠ 0 := by linarith [h.hl.g1]
  refine ⟨_, a2, rfl, ?_, ?_⟩
  · refine (mul_self_inj b2.le a2.le).1 (mul_left_cancel₀ hg2 ?_)
    rw [a1, b1, h.enthalpy]
  · rw [a1, Jump.enthalpy_c h.hl, Jump.speed_sq h.unit]
    linear_combination h.prandtl.1

theorem ausmpMR_lt {x y : ℝ} (hx : 0 ≤ x) (hxy : x < y) (hy : y ≤ 1) : ausmpMR x < ausmpMR y := by
  unfold ausmpMR
  rw [if_pos (by rw [abs_of_nonneg hx]; linarith), if_pos (by rw [abs_of_nonneg (by linarith)]; linarith)]
  nlinarith [mul_pos (sub_pos.2 hxy) (show (0:ℝ) < 2 - x - y by linarith), mul_nonneg (mul_nonneg (sub_nonneg.2 hxy.le) (add_nonneg hx (hx.trans hxy.le))) (show (0:ℝ) ≤ 2 - x * x - y * y by nlinarith)]

theorem ausmp_sum {M : ℝ} (h0 : 0 ≤ M) (h1 : M ≤ 1) : ausmpML M = M - ausmpMR M := by
  unfold ausmpML ausmpMR
  rw [if_pos (by rw [abs_of_nonneg h0]; exact h1), if_pos (by rw [abs_of_nonneg h0]; exact h1)]
  ring

/-- C109: AUSM+ keeps a shock exactly if the gas has no velocity along the face. -/
theorem C109_ausmPlus (h : Jump G ul ur n) (hc : cSide G ul < Gas.varsVn ul n) :
    ausmPlus G ul ur n = G.eulerFlux ul n ↔ Gas.vel ul 0 * n 1 - Gas.vel ul 1 * n 0 = 0 := by
  obtain ⟨s, hs, s1, s2, s3⟩ := h.crit
  have hlt := h.compressed_iff.1 hc
  have hp := h.pos
  have hr := h.rpos
  have hg1 := h.hl.g1
  have hg : 0 < G.g + 1 := by linarith
  have hch : ausmpCOf G ul ur n = if s < Gas.varsVn ul n then s * s / Gas.varsVn ul n else s := by
    unfold ausmpCOf ausmpC
    rw [s1, s2]
    dsimp only
    rw [if_pos (show s > -Gas.varsVn ur n by linarith), mul_self_div_self]
    rcases lt_trichotomy s (Gas.varsVn ul n) with k | k | k
    · rw [if_neg (not_lt.2 k.le), if_pos k]
      exact if_pos (by rw [div_lt_iff₀ hp]; nlinarith)
    · rw [← k]; simp
    · rw [if_pos k, if_neg (not_lt.2 k.le)]; simp
  rw [eulerFlux_eq h.hl.rho']
  constructor
  · intro e
    by_contra ht
    have ht2 := mul_self_pos.2 ht
    have hss : Gas.varsVn ul n * Gas.varsVn ur n < s * s := by
      refine lt_of_mul_lt_mul_left ?_ hg.le
      rw [s3]
      nlinarith [mul_pos (show (0:ℝ) < G.g - 1 by linarith) ht2]
    have hpos : 0 < ausmpCOf G ul ur n := ausmpC_pos h.hl h.hr
    have hmr : Gas.varsVn ur n < ausmpCOf G ul ur n := by
      rw [hch]
      split_ifs with k
      · rw [lt_div_iff₀ hp]; linarith
      · nlinarith
    have e0 := congrFun e 0
    simp only [ausmPlus, ausmpCore, Gas.dirFlux, Matrix.cons_val_zero] at e0
    generalize hC : ausmpCOf G ul ur n = C at *
    have hx0 : 0 < Gas.varsVn ur n / C := div_pos hr hpos
    have hx1 : Gas.varsVn ur n / C < 1 := (div_lt_one hpos).2 hmr
    have hxy : Gas.varsVn ur n / C < Gas.varsVn ul n / C := div_lt_div_of_pos_right hlt hpos
    have d : Gas.varsVn ul n = Gas.varsVn ul n / C * C := by field_simp
    have key : ∃ z < 0, ausmpML (Gas.varsVn ul n / C) + ausmpMR (Gas.varsVn ur n / C) = Gas.varsVn ul n / C + z := by
      rcases le_or_gt (Gas.varsVn ul n / C) 1 with k | k
      · refine ⟨ausmpMR (Gas.varsVn ur n / C) - ausmpMR (Gas.varsVn ul n / C), sub_neg.2 (ausmpMR_lt hx0.le hxy k), ?_⟩
        rw [ausmp_sum (by linarith) k]; ring
      · refine ⟨ausmpMR (Gas.varsVn ur n / C), ?_, ?_⟩
        · have := ausmpMR_lt hx0.le hx1 le_rfl
          simpa [ausmpMR] using this
        · congr 1
          unfold ausmpML
          rw [if_neg (by rw [abs_of_pos (by linarith)]; linarith), if_neg (by linarith)]
    obtain ⟨z, hz, ez⟩ := key
    rw [ez] at e0
    have hm := mul_pos hp h.hl.rho
    generalize Gas.varsVn ul n / C = x at e0 d
    have pl := mul_pos h.hl.rho hpos
    have pr := mul_pos h.hr.rho hpos
    rcases le_total 0 (x + z) with k | k
    · rw [abs_of_nonneg k] at e0
      have : ul 0 * C * z = 0 := by rw [d] at e0; linear_combination e0
      exact (mul_ne_zero pl.ne' hz.ne) this
    · rw [abs_of_nonpos k] at e0
      nlinarith
  · intro ht
    have hss : s * s = Gas.varsVn ul n * Gas.varsVn ur n := by
      refine mul_left_cancel₀ hg.ne' ?_
      rw [s3, ht]; ring
    have hsl : s < Gas.varsVn ul n := by nlinarith
    have hC : ausmpCOf G ul ur n = Gas.varsVn ur n := by
      rw [hch, if_pos hsl, hss]; field_simp
    have hM : 1 < Gas.varsVn ul n / Gas.varsVn ur n := (one_lt_div hr).2 hlt
    have hab : ¬ |Gas.varsVn ul n / Gas.varsVn ur n| ≤ 1 := by rw [abs_of_pos (by linarith)]; linarith
    have h2 : ¬ Gas.varsVn ul n / Gas.varsVn ur n < -1 := by linarith
    have d : Gas.varsVn ul n / Gas.varsVn ur n * Gas.varsVn ur n = Gas.varsVn ul n := by field_simp
    simp only [ausmPlus, hC, div_self hr.ne', ausmpML, ausmpMR, ausmpPL, ausmpPR, if_neg hab, if_neg h2, abs_one, le_refl, if_true]
    generalize Gas.varsVn ul n / Gas.varsVn ur n = x at hM d
    funext i
    fin_cases i <;> simp [ausmpCore, Gas.dirFlux, abs_of_pos (show (0:ℝ) < x by linarith)] <;> rw [← d] <;> ring

/-- In front of an expansion shock the flow is slower than sound, behind it faster. -/
theorem Jump.expansion (h : Jump G ul ur n) (hc : ¬ cSide G ul < Gas.varsVn ul n) :
    Gas.varsVn ul n < cSide G ul ∧ cSide G ur < Gas.varsVn ur n ∧ Gas.varsVn ul n < Gas.varsVn ur n := by
  have hlt : Gas.varsVn ul n < Gas.varsVn ur n := lt_of_le_of_ne (not_lt.1 fun k => hc (h.compressed_iff.2 k)) h.vne
  have hp := h.prandtl
  have c1 := h.hl.c_pos
  have c2 := h.hr.c_pos
  have hg := h.hl.g1
  have hl := h.pos
  have hr := h.rpos
  have k1 := mul_pos (mul_pos hl (sub_pos.2 hlt)) (show (0:ℝ) < G.g + 1 by linarith)
  have k2 := mul_pos (mul_pos hr (sub_pos.2 hlt)) (show (0:ℝ) < G.g + 1 by linarith)
  refine ⟨?_, ?_, hlt⟩
  · by_contra hn
    push Not at hn
    nlinarith [mul_self_le_mul_self c1.le hn, hp.1]
  · by_contra hn
    push Not at hn
    nlinarith [mul_self_le_mul_self hr.le hn, hp.2]

/-- C109: no scheme keeps an expansion shock, which the second law forbids. -/
theorem C109_expansion (h : Jump G ul ur n) (hc : ¬ cSide G ul < Gas.varsVn ul n) (s : Scheme) : s.flux G ul ur n ≠ G.eulerFlux ul n := by
  obtain ⟨x1, x2, x3⟩ := h.expansion hc
  have hp := h.pos
  have hr := h.rpos
  have cl := h.hl.c_pos
  have cr := h.hr.c_pos
  have hrho := h.hl.rho
  have a1 : Gas.varsVn ul n / cSide G ul < 1 := (div_lt_one cl).2 x1
  have a0 : 0 < Gas.varsVn ul n / cSide G ul := div_pos hp cl
  have b1 : 1 < Gas.varsVn ur n / cSide G ur := (one_lt_div cr).2 x2
  have d : Gas.varsVn ul n = Gas.varsVn ul n / cSide G ul * cSide G ul := by field_simp
  cases s
  · exact C109_llf h
  · intro e
    have e0 := congrFun e 0
    rw [eulerFlux_eq h.hl.rho'] at e0
    simp only [Scheme.flux, vanLeer, vlPlus, vlMinus, if_neg (show ¬ Gas.varsVn ul n / cSide G ul < -1 by linarith),
      if_neg (show ¬ Gas.varsVn ul n / cSide G ul > 1 by linarith), if_pos (show Gas.varsVn ur n / cSide G ur > 1 from b1), Gas.dirFlux, Matrix.cons_val_zero, Pi.zero_apply] at e0
    generalize Gas.varsVn ul n / cSide G ul = x at *
    have : ul 0 * cSide G ul * (x - 1) ^ 2 = 0 := by rw [d] at e0; linear_combination 4 * e0
    exact (mul_ne_zero (mul_ne_zero h.hl.rho' cl.ne') (pow_ne_zero 2 (by linarith))) this
  · intro e
    have e0 := congrFun e 0
    rw [eulerFlux_eq h.hl.rho'] at e0
    have m2 : ausmMR (Gas.varsVn ur n / cSide G ur) = 0 := by
      unfold ausmMR
      rw [if_neg (by rw [abs_of_pos (by linarith)]; linarith), if_neg (by linarith)]
    have m1 : ausmML (Gas.varsVn ul n / cSide G ul) = 1 / 4 * (Gas.varsVn ul n / cSide G ul + 1) * (Gas.varsVn ul n / cSide G ul + 1) := by
      unfold ausmML
      rw [if_pos (by rw [abs_of_pos a0]; linarith)]
    simp only [Scheme.flux, ausm, ausmCore, Gas.dirFlux, Matrix.cons_val_zero, m1, m2, add_zero] at e0
    generalize Gas.varsVn ul n / cSide G ul = x at *
    rw [abs_of_nonneg (by positivity)] at e0
    have : ul 0 * cSide G ul * (x - 1) ^ 2 = 0 := by rw [d] at e0; linear_combination 4 * e0
    exact (mul_ne_zero (mul_ne_zero h.hl.rho' cl.ne') (pow_ne_zero 2 (by linarith))) this
  · intro e
    obtain ⟨s, hs, s1, s2, s3⟩ := h.crit
    have hg1 := h.hl.g1
    have hg : 0 < G.g + 1 := by linarith
    have hss : Gas.varsVn ul n * Gas.varsVn ur n ≤ s * s := by
      refine le_of_mul_le_mul_left ?_ hg
      rw [s3]
      have := mul_nonneg (show (0:ℝ) ≤ G.g - 1 by linarith) (mul_self_nonneg (Gas.vel ul 0 * n 1 - Gas.vel ul 1 * n 0))
      linarith
    have hsl : Gas.varsVn ul n < s := by nlinarith
    have hC : ausmpCOf G ul ur n = s := by
      unfold ausmpCOf ausmpC
      rw [s1, s2]
      dsimp only
      rw [if_pos (show s > -Gas.varsVn ur n by linarith), if_pos (show s > _ from hsl), mul_self_div_self]
      simp
    have e0 := congrFun e 0
    rw [eulerFlux_eq h.hl.rho'] at e0
    simp only [Scheme.flux, ausmPlus, ausmpCore, Gas.dirFlux, Matrix.cons_val_zero, hC] at e0
    have y0 : 0 < Gas.varsVn ul n / s := div_pos hp hs
    have y1 : Gas.varsVn ul n / s < 1 := (div_lt_one hs).2 hsl
    have yx : Gas.varsVn ul n / s < Gas.varsVn ur n / s := div_lt_div_of_pos_right x3 hs
    have d2 : Gas.varsVn ul n = Gas.varsVn ul n / s * s := by field_simp
    have key : ausmpMR (Gas.varsVn ul n / s) < ausmpMR (Gas.varsVn ur n / s) := by
      rcases le_or_gt (Gas.varsVn ur n / s) 1 with k | k
      · exact ausmpMR_lt y0.le yx k
      · have h1 := ausmpMR_lt y0.le y1 le_rfl
        have h2 : ausmpMR (Gas.varsVn ur n / s) = 0 := by
          unfold ausmpMR
          rw [if_neg (by rw [abs_of_pos (by linarith)]; linarith), if_neg (by linarith)]
        rw [h2]
        simpa [ausmpMR] using h1
    rw [ausmp_sum y0.le y1.le] at e0
    generalize Gas.varsVn ul n / s = x at *
    generalize ausmpMR (Gas.varsVn ur n / s) = z at *
    generalize ausmpMR x = w at *
    rw [abs_of_pos (by linarith)] at e0
    have : ul 0 * s * (z - w) = 0 := by rw [d2] at e0; linear_combination e0
    exact (mul_ne_zero (mul_ne_zero h.hl.rho' hs.ne') (by linarith)) this
  · intro e
    have e0 := congrFun e 0
    simp only [Scheme.flux, C109_roe h] at e0
    have hx : (roeOf G ul ur n).c / 40000 * (ur 0 - ul 0) = 0 := by linarith
    have hf : 0 < (roeOf G ul ur n).c / 40000 := by
      have := roe_c_pos (n := n) h.hl h.hr
      positivity
    exact (mul_ne_zero hf.ne' h.rho_ne) hx
  · exact fun e => hc ((C109_hll h).1 e)
  · exact fun e => hc ((C109_hllc h).1 e)

/-- C109: the whole picture. At a shock normal to the face, exactly HLL, HLLC and, if the gas has no velocity along the face, AUSM+ give the flux of the gas on both sides. -/
theorem C109_shock (h : Jump G ul ur n) (hc : cSide G ul < Gas.varsVn ul n) (s : Scheme) :
    s.flux G ul ur n = G.eulerFlux ul n ↔ s = .hll ∨ s = .hllc ∨ (s = .ausmPlus ∧ Gas.vel ul 0 * n 1 - Gas.vel ul 1 * n 0 = 0) := by
  cases s
  · simpa [Scheme.flux] using C109_llf h
  · simpa [Scheme.flux] using C109_vanLeer h hc
  · simpa [Scheme.flux] using C109_ausm h hc
  · simpa [Scheme.flux] using C109_ausmPlus h hc
  · have h2 : roe G ul ur n ≠ G.eulerFlux ul n := by
      intro e
      have e0 := congrFun e 0
      rw [C109_roe h] at e0
      have hx : (roeOf G ul ur n).c / 40000 * (ur 0 - ul 0) = 0 := by linarith
      have hf : 0 < (roeOf G ul ur n).c / 40000 := by
        have := roe_c_pos (n := n) h.hl h.hr
        positivity
      exact (mul_ne_zero hf.ne' h.rho_ne) hx
    simpa [Scheme.flux] using h2
  · simpa [Scheme.flux] using (C109_hll h).2 hc
  · simpa [Scheme.flux] using (C109_hllc h).2 hc

/-! ### Equal fluxes on both sides -/

/-- Specification of the second law at a face: the gas does not expand abruptly in the direction in which it flows. -/
def Forward (G : Gas) (a b : St) (n : V2) : Prop :=
  (0 < Gas.varsVn a n → G.varsP a ≤ G.varsP b) ∧ (Gas.varsVn a n < 0 → G.varsP b ≤ G.varsP a)

theorem eulerFlux_neg (G : Gas) (u : St) (n : V2) : G.eulerFlux u (-n) = -G.eulerFlux u n := by
  funext v
  simp only [Gas.eulerFlux, Gas.dirFlux]
  fin_cases v <;> simp [dot, mom] <;> ring

theorem Jump.forward_iff {a b : St} (h : Jump G a b n) : cSide G a < Gas.varsVn a n ↔ G.varsP a ≤ G.varsP b := by
  rw [h.compressed_iff]
  have hm := h.momentum
  have hp := mul_pos h.pos h.hl.rho
  have := h.vne
  constructor
  · intro k
    nlinarith [mul_pos hp (sub_pos.2 k)]
  · intro k
    by_contra hn
    have hlt : Gas.varsVn a n < Gas.varsVn b n := lt_of_le_of_ne (not_lt.1 hn) this
    nlinarith [mul_pos hp (sub_pos.2 hlt)]

theorem contact_of_flux {a b : St} (ha : Adm G a) (hb : Adm G b) (hn : n 0 * n 0 + n 1 * n 1 = 1) (hf : G.eulerFlux a n = G.eulerFlux b n)
    (h0 : Gas.varsVn a n = 0) : Contact G a b n (G.varsP a) ∧ G.eulerFlux a n = pressureFlux n (G.varsP a) := by
  rw [eulerFlux_eq ha.rho', eulerFlux_eq hb.rho'] at hf
  have f0 := congrFun hf 0
  have f1 := congrFun hf 1
  have f2 := congrFun hf 2
  simp [Gas.dirFlux, h0] at f0 f1 f2
  have hb0 : Gas.varsVn b n = 0 := f0.resolve_right hb.rho'
  rw [hb0] at f1 f2
  refine ⟨⟨h0, hb0, rfl, ?_⟩, ?_⟩
  · linear_combination -(n 0) * f1 - n 1 * f2 + (G.varsP a - G.varsP b) * hn
  · rw [eulerFlux_eq ha.rho']
    funext i
    fin_cases i <;> simp [Gas.dirFlux, pressureFlux, h0]

/-- C109: between any two states with the same flux, HLLC gives that flux exactly if the second law allows the states to stand side by side. -/
theorem C109_hllc_exact {a b : St} (hg : 4 ≤ 3 * G.g) (ha : Adm G a) (hb : Adm G b) (hn : n 0 * n 0 + n 1 * n 1 = 1) (hf : G.eulerFlux a n = G.eulerFlux b n) :
    hllc G a b n = G.eulerFlux a n ↔ Forward G a b n := by
  by_cases hab : a = b
  · subst hab
    exact iff_of_true (C15_consistency G a n ha .hllc) ⟨fun _ => le_rfl, fun _ => le_rfl⟩
  rcases lt_trichotomy (Gas.varsVn a n) 0 with k | k | k
  · have hvb : 0 < Gas.varsVn b (-n) := by
      have f0 := congrFun hf 0
      rw [eulerFlux_eq ha.rho', eulerFlux_eq hb.rho'] at f0
      simp only [Gas.dirFlux, Matrix.cons_val_zero] at f0
      rw [varsVn_neg]
      nlinarith [ha.rho, hb.rho, mul_neg_of_neg_of_pos k ha.rho]
    have hJ : Jump G b a (-n) := ⟨hb, ha, by simpa using hn, by rw [eulerFlux_neg, eulerFlux_neg, hf], fun e => hab e.symm, hvb⟩
    have e1 := C109_hllc hJ
    have sw : hllc G b a (-n) = -hllc G a b n := funext fun i => C16_hllc hg ha hb hn i
    rw [sw, eulerFlux_neg, neg_inj, ← hf, hJ.forward_iff] at e1
    rw [e1]
    exact ⟨fun h => ⟨fun h2 => absurd h2 (by linarith), fun _ => h⟩, fun h => h.2 k⟩
  · obtain ⟨c1, c2⟩ := contact_of_flux ha hb hn hf k
    rw [c2]
    exact iff_of_true (C20_hllc ha hb c1) ⟨fun h2 => absurd h2 (by linarith), fun h2 => absurd h2 (by linarith)⟩
  · have hJ : Jump G a b n := ⟨ha, hb, hn, hf, hab, k⟩
    rw [C109_hllc hJ, hJ.forward_iff]
    exact ⟨fun h => ⟨fun _ => h, fun h2 => absurd h2 (by linarith)⟩, fun h => h.1 k⟩

/-- C109: so does HLL, if the states are equal or gas crosses the face. -/
theorem C109_hll_exact {a b : St} (ha : Adm G a) (hb : Adm G b) (hn : n 0 * n 0 + n 1 * n 1 = 1) (hf : G.eulerFlux a n = G.eulerFlux b n)
    (hm : a = b ∨ Gas.varsVn a n ≠ 0) : hll G a b n = G.eulerFlux a n ↔ Forward G a b n := by
  by_cases hab : a = b
  · subst hab
    exact iff_of_true (C15_consistency G a n ha .hll) ⟨fun _ => le_rfl, fun _ => le_rfl⟩
  rcases lt_or_gt_of_ne (hm.resolve_left hab) with k | k
  · have hvb : 0 < Gas.varsVn b (-n) := by
      have f0 := congrFun hf 0
      rw [eulerFlux_eq ha.rho', eulerFlux_eq hb.rho'] at f0
      simp only [Gas.dirFlux, Matrix.cons_val_zero] at f0
      rw [varsVn_neg]
      nlinarith [ha.rho, hb.rho, mul_neg_of_neg_of_pos k ha.rho]
    have hJ : Jump G b a (-n) := ⟨hb, ha, by simpa using hn, by rw [eulerFlux_neg, eulerFlux_neg, hf], fun e => hab e.symm, hvb⟩
    have e1 := C109_hll hJ
    have sw : hll G b a (-n) = -hll G a b n := funext fun i => C16_hll ha hb n i
    rw [sw, eulerFlux_neg, neg_inj, ← hf, hJ.forward_iff] at e1
    rw [e1]
    exact ⟨fun h => ⟨fun h2 => absurd h2 (by linarith), fun _ => h⟩, fun h => h.2 k⟩
  · have hJ : Jump G a b n := ⟨ha, hb, hn, hf, hab, k⟩
    rw [C109_hll hJ, hJ.forward_iff]
    exact ⟨fun h => ⟨fun _ => h, fun h2 => absurd h2 (by linarith)⟩, fun h => h.1 k⟩

/-! ### A shock of Mach number 2 in air -/

/-- In front of the shock: density 1, speed of sound 1, speed 2; `w` is the velocity along the face. -/
noncomputable def shockA (w : ℝ) : St := ![1, 2, w, 53 / 14 + w * w / 2]
/-- Behind it. -/
noncomputable def shockB (w : ℝ) : St := ![8 / 3, 2, 8 / 3 * w, 123 / 14 + 4 / 3 * (w * w)]

theorem shockA_adm (w : ℝ) : Adm air (shockA w) :=
  ⟨by norm_num [air], by norm_num [shockA], by simp [Gas.pressure, Gas.pressureOfInternal, dot, mom, shockA, air]; ring_nf; norm_num⟩
theorem shockB_adm (w : ℝ) : Adm air (shockB w) :=
  ⟨by norm_num [air], by norm_num [shockB], by simp [Gas.pressure, Gas.pressureOfInternal, dot, mom, shockB, air]; ring_nf; norm_num⟩

theorem shockA_p (w : ℝ) : air.varsP (shockA w) = 5 / 7 := by
  rw [varsP_eq (shockA_adm w).rho']
  simp [Gas.pressure, Gas.pressureOfInternal, dot, mom, shockA, air]; ring
theorem shockB_p (w : ℝ) : air.varsP (shockB w) = 45 / 14 := by
  rw [varsP_eq (shockB_adm w).rho']
  simp [Gas.pressure, Gas.pressureOfInternal, dot, mom, shockB, air]; ring

theorem shock_jump (w : ℝ) : Jump air (shockA w) (shockB w) ![1, 0] := by
  refine ⟨shockA_adm w, shockB_adm w, by simp, ?_, fun e => ?_, ?_⟩
  · rw [eulerFlux_eq (shockA_adm w).rho', eulerFlux_eq (shockB_adm w).rho', shockA_p, shockB_p]
    funext i
    fin_cases i <;> simp [Gas.dirFlux, varsVn_def, Gas.vel, shockA, shockB] <;> ring
  · have := congrFun e 0
    norm_num [shockA, shockB] at this
  · rw [varsVn_def]; simp [Gas.vel, shockA]

theorem shockA_c (w : ℝ) : cSide air (shockA w) = 1 := by
  have h1 := (shockA_adm w).c_sq
  have h2 := (shockA_adm w).c_pos
  refine (mul_self_inj h2.le zero_le_one).1 ?_
  rw [shockA_p] at h1
  have h3 : shockA w 0 = 1 := rfl
  rw [h3, show air.g = 7 / 5 by norm_num [air]] at h1
  linarith

theorem shock_supersonic (w : ℝ) : cSide air (shockA w) < Gas.varsVn (shockA w) ![1, 0] := by
  rw [shockA_c, varsVn_def]; simp [Gas.vel, shockA]

example : hllc air (shockA 1) (shockB 1) ![1, 0] = air.eulerFlux (shockA 1) ![1, 0] ∧ ausmPlus air (shockA 0) (shockB 0) ![1, 0] = air.eulerFlux (shockA 0) ![1, 0] ∧
    ausmPlus air (shockA 1) (shockB 1) ![1, 0] ≠ air.eulerFlux (shockA 1) ![1, 0] ∧ roe air (shockA 0) (shockB 0) ![1, 0] ≠ air.eulerFlux (shockA 0) ![1, 0] := by
  refine ⟨(C109_hllc (shock_jump 1)).2 (shock_supersonic 1), (C109_ausmPlus (shock_jump 0) (shock_supersonic 0)).2 ?_, fun e => ?_, fun e => ?_⟩
  · simp [Gas.vel, shockA]
  · have := (C109_ausmPlus (shock_jump 1) (shock_supersonic 1)).1 e
    simp [Gas.vel, shockA] at this
  · have := (C109_shock (shock_jump 0) (shock_supersonic 0) .roe).1 e
    simp at this

/-- The same two states with the flow reversed are an expansion shock. -/
theorem expansion_jump (w : ℝ) : Jump air (shockB w) (shockA w) ![1, 0] ∧ ¬ cSide air (shockB w) < Gas.varsVn (shockB w) ![1, 0] := by
  have h := shock_jump w
  have hJ : Jump air (shockB w) (shockA w) ![1, 0] := ⟨h.hr, h.hl, h.unit, h.flux.symm, h.ne.symm, h.rpos⟩
  exact ⟨hJ, fun k => absurd (hJ.compressed_iff.1 k) (not_lt.2 (h.compressed_iff.1 (shock_supersonic w)).le)⟩

example (s : Scheme) : s.flux air (shockB 1) (shockA 1) ![1, 0] ≠ air.eulerFlux (shockB 1) ![1, 0] := C109_expansion (expansion_jump 1).1 (expansion_jump 1).2 s

/-- C109: the four other schemes, Roe's with its entropy fix among them, smear even this shock. -/
theorem C109_others (s : Scheme) (hs : s = .llf ∨ s = .vanLeer ∨ s = .ausm ∨ s = .roe) :
    ∃ ul ur : St, Jump air ul ur ![1, 0] ∧ cSide air ul < Gas.varsVn ul ![1, 0] ∧ s.flux air ul ur ![1, 0] ≠ air.eulerFlux ul ![1, 0] := by
  refine ⟨shockA 0, shockB 0, shock_jump 0, shock_supersonic 0, fun e => ?_⟩
  rcases hs with rfl | rfl | rfl | rfl <;> simpa using (C109_shock (shock_jump 0) (shock_supersonic 0) _).1 e

end Flux
end FVENS
