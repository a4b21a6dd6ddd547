import Verif.Flux.Order

/-!
# Fluxes and positive states (C93)

States of positive density and internal energy form a convex cone. A flux that can be written as a constant part of the physical flux of the near side, plus a rate
times the near state, minus a state of the cone keeps cells in the cone under a bound on the time step; see FV/Positive.lean.
-/

namespace FVENS
namespace Flux

/-- Specification: positive density and internal energy. -/
def Pos (u : St) : Prop := 0 < u 0 ∧ u 1 * u 1 + u 2 * u 2 < 2 * u 0 * u 3

variable {G : Gas} {u ul ur : St} {n : V2}

theorem adm_iff : Adm G u ↔ 1 < G.g ∧ Pos u := by
  have key : u 0 > 0 → G.pressure u = (G.g - 1) * ((2 * u 0 * u 3 - (u 1 * u 1 + u 2 * u 2)) / (2 * u 0)) := by
    intro h
    simp only [Gas.pressure, Gas.pressureOfInternal, dot, mom, Matrix.cons_val_zero, Matrix.cons_val_one]
    field_simp
  constructor
  · rintro ⟨h1, h2, h3⟩
    refine ⟨h1, h2, ?_⟩
    rw [key h2] at h3
    have h4 := (pos_iff_pos_of_mul_pos h3).1 (by linarith)
    have := (div_pos_iff_of_pos_right (by linarith)).1 h4
    linarith
  · rintro ⟨h1, h2, h3⟩
    refine ⟨h1, h2, ?_⟩
    rw [key h2]
    exact mul_pos (by linarith) (div_pos (by linarith) (by linarith))

theorem Pos.add {a b : St} (ha : Pos a) (hb : Pos b) : Pos (a + b) := by
  obtain ⟨a0, a1⟩ := ha
  obtain ⟨b0, b1⟩ := hb
  refine ⟨by simp only [Pi.add_apply]; linarith, ?_⟩
  simp only [Pi.add_apply]
  have k1 : a 1 * b 1 + a 2 * b 2 < a 0 * b 3 + b 0 * a 3 := by
    have e1 := mul_lt_mul_of_pos_left a1 (mul_pos b0 b0)
    have e2 := mul_lt_mul_of_pos_left b1 (mul_pos a0 a0)
    have e3 := sq_nonneg (b 0 * a 1 - a 0 * b 1)
    have e4 := sq_nonneg (b 0 * a 2 - a 0 * b 2)
    have : 2 * (a 0 * b 0) * (a 1 * b 1 + a 2 * b 2) < 2 * (a 0 * b 0) * (a 0 * b 3 + b 0 * a 3) := by nlinarith
    exact lt_of_mul_lt_mul_left this (by positivity)
  nlinarith

theorem Pos.smul {a : St} (ha : Pos a) {t : ℝ} (ht : 0 < t) : Pos (t • a) := by
  obtain ⟨a0, a1⟩ := ha
  refine ⟨by simp only [Pi.smul_apply, smul_eq_mul]; positivity, ?_⟩
  simp only [Pi.smul_apply, smul_eq_mul]
  have := mul_lt_mul_of_pos_left a1 (mul_pos ht ht)
  nlinarith

/-- The cone with its apex. -/
def Cone (w : St) : Prop := w = 0 ∨ Pos w

theorem Cone.add {a b : St} (ha : Cone a) (hb : Cone b) : Cone (a + b) := by
  rcases ha with rfl | ha
  · rwa [zero_add]
  · rcases hb with rfl | hb
    · rw [add_zero]; exact Or.inr ha
    · exact Or.inr (ha.add hb)

theorem Pos.add_cone {a b : St} (ha : Pos a) (hb : Cone b) : Pos (a + b) := by
  rcases hb with rfl | hb
  · rwa [add_zero]
  · exact ha.add hb

theorem Cone.smul {a : St} (ha : Cone a) {t : ℝ} (ht : 0 ≤ t) : Cone (t • a) := by
  rcases ha with rfl | ha
  · rw [smul_zero]; exact Or.inl rfl
  · rcases ht.eq_or_lt with rfl | ht
    · rw [zero_smul]; exact Or.inl rfl
    · exact Or.inr (ha.smul ht)

/-- A flux of one side, in the frame of the normal: `m` times mass, velocity and specific energy. -/
theorem pos_of_normal {m w e : ℝ} (hn : n 0 * n 0 + n 1 * n 1 = 1) (hm : 0 < m) (v : V2) (x : ℝ)
    (he : w * w - x * x + v 0 * v 0 + v 1 * v 1 < 2 * e) (hx : x = v 0 * n 0 + v 1 * n 1) :
    Pos ![m, m * (v 0 + (w - x) * n 0), m * (v 1 + (w - x) * n 1), m * e] := by
  refine ⟨hm, ?_⟩
  have key : (v 0 + (w - x) * n 0) * (v 0 + (w - x) * n 0) + (v 1 + (w - x) * n 1) * (v 1 + (w - x) * n 1) =
      w * w - x * x + v 0 * v 0 + v 1 * v 1 := by
    subst hx
    linear_combination (w - (v 0 * n 0 + v 1 * n 1)) * (w - (v 0 * n 0 + v 1 * n 1)) * hn
  simp only [Matrix.cons_val_zero, Matrix.cons_val_one, Matrix.cons_val]
  have := mul_lt_mul_of_pos_left he (mul_pos hm hm)
  rw [← key] at this
  nlinarith

/-- A state moved with a wave no slower than sound, less its flux. -/
theorem wave_right (h : Adm G u) (hn : n 0 * n 0 + n 1 * n 1 = 1) {s : ℝ} (hs : Gas.varsVn u n + cSide G u ≤ s) :
    Pos (s • u - G.eulerFlux u n) := by
  have hp := h.vp
  have hc := h.c_pos
  have hcq := h.c_sq
  have hr := h.rho
  have hg := h.g1
  have e3 := energy_eq h
  have e1 := mom1_eq h.rho'
  have e2 := mom2_eq h.rho'
  rw [eulerFlux_eq h.rho']
  generalize Gas.varsP = PP at *
  set p := PP G u
  set c := cSide G u
  set a := Gas.vel u 0
  set b := Gas.vel u 1
  have hvn : Gas.varsVn u n = a * n 0 + b * n 1 := rfl
  rw [hvn] at hs ⊢
  set x := a * n 0 + b * n 1 with hx
  have hd : c ≤ s - x := by linarith
  have hd0 : 0 < s - x := by linarith
  refine ⟨?_, ?_⟩
  · simp only [Gas.dirFlux, Pi.sub_apply, Pi.smul_apply, smul_eq_mul, Matrix.cons_val_zero]
    have := mul_pos hr hd0
    linarith
  · simp only [Gas.dirFlux, Pi.sub_apply, Pi.smul_apply, smul_eq_mul, Matrix.cons_val_zero, Matrix.cons_val_one, Matrix.cons_val]
    have hsq : c * c ≤ (s - x) * (s - x) := mul_self_le_mul_self hc.le hd
    have hlow : p * (G.g - 1) < 2 * u 0 * ((s - x) * (s - x)) := by
      have := mul_le_mul_of_nonneg_left hsq hr.le
      nlinarith
    have hfin : p * p < 2 * u 0 * p / (G.g - 1) * ((s - x) * (s - x)) := by
      rw [div_mul_eq_mul_div, lt_div_iff₀ (by linarith)]
      nlinarith
    have hE : u 3 = p / (G.g - 1) + u 0 * (a * a + b * b) / 2 := e3
    have hg' : G.g - 1 ≠ 0 := by linarith
    have : 2 * (s * u 0 - x * u 0) * (s * u 3 - x * (u 3 + p)) - ((s * u 1 - (x * u 1 + p * n 0)) * (s * u 1 - (x * u 1 + p * n 0)) +
        (s * u 2 - (x * u 2 + p * n 1)) * (s * u 2 - (x * u 2 + p * n 1))) = 2 * u 0 * p / (G.g - 1) * ((s - x) * (s - x)) - p * p := by
      rw [hE, e1, e2, hx]
      field_simp
      linear_combination (-(p * p * (G.g - 1))) * hn
    linarith

theorem eulerFlux_neg (u : St) (n : V2) : G.eulerFlux u (-n) = - G.eulerFlux u n := by
  funext i
  simp only [Gas.eulerFlux, Pi.neg_apply]
  rw [show dot (mom u) (-n) / u 0 = -(dot (mom u) n / u 0) by simp [dot]; ring, dirFlux_neg]

/-- The same for a wave in the other direction. -/
theorem wave_left (h : Adm G u) (hn : n 0 * n 0 + n 1 * n 1 = 1) {s : ℝ} (hs : cSide G u - Gas.varsVn u n ≤ s) :
    Pos (s • u + G.eulerFlux u n) := by
  have := wave_right (n := -n) h (by simpa using hn) (s := s) (by rw [varsVn_neg]; linarith)
  rwa [eulerFlux_neg, sub_neg_eq_add] at this

/-- The flux is the part `b` of the physical flux of the near side, plus `a` times the near state, less a state of the cone. -/
def Splits (G : Gas) (F : St) (b a : ℝ) (ul : St) (n : V2) : Prop :=
  0 ≤ a ∧ ∃ w, (a = 0 ∧ w = 0 ∨ Pos w) ∧ F = b • G.eulerFlux ul n + a • ul - w

/-- Local Lax-Friedrichs: half the larger wave speed. -/
theorem llf_splits (hl : Adm G ul) (hr : Adm G ur) (hn : n 0 * n 0 + n 1 * n 1 = 1) :
    Splits G (llf G ul ur n) (1 / 2) (1 / 2 * max (|Gas.varsVn ul n| + cSide G ul) (|Gas.varsVn ur n| + cSide G ur)) ul n := by
  have he : llfEig (Gas.varsVn ul n) (cSide G ul) (Gas.varsVn ur n) (cSide G ur) = max (|Gas.varsVn ul n| + cSide G ul) (|Gas.varsVn ur n| + cSide G ur) := by
    unfold llfEig
    split_ifs with h
    · exact (max_eq_left h.le).symm
    · exact (max_eq_right (not_lt.1 h)).symm
  have h0 : 0 ≤ max (|Gas.varsVn ul n| + cSide G ul) (|Gas.varsVn ur n| + cSide G ur) :=
    (add_nonneg (abs_nonneg _) hl.c_pos.le).trans (le_max_left _ _)
  refine ⟨by positivity, (1 / 2 : ℝ) • (max (|Gas.varsVn ul n| + cSide G ul) (|Gas.varsVn ur n| + cSide G ur) • ur - G.eulerFlux ur n), Or.inr ?_, ?_⟩
  · refine (wave_right hr hn ?_).smul (by norm_num)
    exact (add_le_add_left (le_abs_self _) _).trans (le_max_right _ _)
  · funext i
    simp only [llf, he, Pi.add_apply, Pi.sub_apply, Pi.smul_apply, smul_eq_mul]
    ring

theorem hll_eq (hl : Adm G ul) (hr : Adm G ur) (i : Fin 4) : hll G ul ur n i =
    hllT1 (slOf G ul ur n) (srOf G ul ur n) * G.eulerFlux ur n i + (1 - hllT1 (slOf G ul ur n) (srOf G ul ur n)) * G.eulerFlux ul n i -
      hllT3 (slOf G ul ur n) (srOf G ul ur n) * (ur i - ul i) := by
  have e1 := varsH_eq (G := G) hl.rho'
  have e2 := varsH_eq (G := G) hr.rho'
  rw [eulerFlux_eq hl.rho', eulerFlux_eq hr.rho']
  unfold hll
  generalize hllT1 _ _ = t1
  generalize hllT3 _ _ = t3
  fin_cases i <;> simp [hllCore, Gas.dirFlux]
  · ring
  · linear_combination t1 * Gas.varsVn ur n * e2 + (1 - t1) * Gas.varsVn ul n * e1

/-- HLL: the speed of the left wave, if it moves to the left. -/
theorem hll_splits (hl : Adm G ul) (hr : Adm G ur) (hn : n 0 * n 0 + n 1 * n 1 = 1) :
    Splits G (hll G ul ur n) 1 (max 0 (- slOf G ul ur n)) ul n := by
  have hlr := sl_lt_sr (n := n) hl hr
  have wl : cSide G ul - Gas.varsVn ul n ≤ - slOf G ul ur n := by
    have := (waveL_le (Gas.varsVn ul n) (cSide G ul) (roeOf G ul ur n)).1
    change slOf G ul ur n ≤ _ at this
    linarith
  have wr : Gas.varsVn ur n + cSide G ur ≤ srOf G ul ur n := (waveR_ge (Gas.varsVn ur n) (cSide G ur) (roeOf G ul ur n)).1
  have hF := fun i => hll_eq (n := n) hl hr i
  generalize slOf G ul ur n = sl at *
  generalize srOf G ul ur n = sr at *
  have hd : sr - sl ≠ 0 := by linarith
  refine ⟨le_max_left _ _, ?_⟩
  by_cases h1 : 0 < sl
  · rw [max_eq_left (by linarith)]
    refine ⟨0, Or.inl ⟨rfl, rfl⟩, ?_⟩
    funext i
    have h2 : 0 < sr := by linarith
    rw [hF i]
    simp only [hllT1, hllT3, gt_iff_lt, h1, h2, if_true, abs_of_pos]
    simp
    exact Or.inl (Or.inl (by ring))
  · have h1' := not_lt.1 h1
    rw [max_eq_right (by linarith)]
    by_cases h2 : 0 < sr
    · have ht1 : hllT1 sl sr = - sl / (sr - sl) := by simp [hllT1, h1, h2]
      have ht3 : hllT3 sl sr = - sl * sr / (sr - sl) := by
        simp only [hllT3, abs_of_pos h2, abs_of_nonpos h1']; ring
      rcases h1'.eq_or_lt with e | hneg
      · refine ⟨0, Or.inl ⟨by linarith, rfl⟩, ?_⟩
        funext i
        rw [hF i, ht1, ht3, e]; simp
      · refine ⟨(- sl / (sr - sl)) • (((- sl) • ul + G.eulerFlux ul n) + (sr • ur - G.eulerFlux ur n)), Or.inr ?_, ?_⟩
        · exact ((wave_left hl hn wl).add (wave_right hr hn wr)).smul (div_pos (by linarith) (by linarith))
        · funext i
          rw [hF i, ht1, ht3]
          simp only [Pi.add_apply, Pi.sub_apply, Pi.smul_apply, smul_eq_mul]
          field_simp
          ring
    · have h2' := not_lt.1 h2
      have ht1 : hllT1 sl sr = 1 := by simp [hllT1, h1, h2, div_self hd]
      have ht3 : hllT3 sl sr = 0 := by
        simp only [hllT3, abs_of_nonpos h2', abs_of_nonpos h1']; rw [show sr * -sl - sl * -sr = 0 by ring]; simp
      refine ⟨((- sl) • ul + G.eulerFlux ul n) + ((0 : ℝ) • ur - G.eulerFlux ur n), Or.inr ?_, ?_⟩
      · exact (wave_left hl hn wl).add (wave_right hr hn (by linarith))
      · funext i
        rw [hF i, ht1, ht3]
        simp only [Pi.add_apply, Pi.sub_apply, Pi.smul_apply, smul_eq_mul]
        ring

/-- Star states of a wave no slower than sound are in the cone. -/
theorem star_left (h : Adm G u) (hn : n 0 * n 0 + n 1 * n 1 = 1) {ss sm : ℝ} (hs : ss ≤ Gas.varsVn u n - cSide G u) (hm : ss < sm) :
    Pos (star u n (Gas.varsVn u n) (G.varsP u) ss sm) := by
  have hp := h.vp
  have hc := h.c_pos
  have hcq := h.c_sq
  have hr := h.rho
  have hg := h.g1
  have e3 := energy_eq h
  have e1 := mom1_eq h.rho'
  have e2 := mom2_eq h.rho'
  generalize Gas.varsP = PP at *
  set p := PP G u
  set c := cSide G u
  set a := Gas.vel u 0
  set b := Gas.vel u 1
  have hvn : Gas.varsVn u n = a * n 0 + b * n 1 := rfl
  rw [hvn] at hs ⊢
  set x := a * n 0 + b * n 1 with hx
  have hd : c ≤ x - ss := by linarith
  have hd0 : 0 < x - ss := by linarith
  have hmm : 0 < sm - ss := by linarith
  have hmn : ss - sm ≠ 0 := by linarith
  have key : Pos ((sm - ss) • star u n x p ss sm) := by
    have hst : (sm - ss) • star u n x p ss sm = ![u 0 * (x - ss), (x - ss) * u 1 - u 0 * (x - ss) * (x - sm) * n 0,
        (x - ss) * u 2 - u 0 * (x - ss) * (x - sm) * n 1, (x - ss) * u 3 + p * x - (u 0 * (x - ss) * (x - sm) + p) * sm] := by
      funext i
      fin_cases i <;> simp [star] <;> field_simp <;> ring
    rw [hst]
    refine ⟨mul_pos hr hd0, ?_⟩
    simp only [Matrix.cons_val_zero, Matrix.cons_val_one, Matrix.cons_val]
    have hsq : c * c ≤ (x - ss) * (x - ss) := mul_self_le_mul_self hc.le hd
    have hlow : p * (G.g - 1) < 2 * u 0 * ((x - ss) * (x - ss)) := by
      have := mul_le_mul_of_nonneg_left hsq hr.le
      nlinarith
    have hfin : p * p < 2 * u 0 * p / (G.g - 1) * ((x - ss) * (x - ss)) := by
      rw [div_mul_eq_mul_div, lt_div_iff₀ (by linarith)]
      nlinarith
    have hE : u 3 = p / (G.g - 1) + u 0 * (a * a + b * b) / 2 := e3
    have hg' : G.g - 1 ≠ 0 := by linarith
    have hid : 2 * (u 0 * (x - ss)) * ((x - ss) * u 3 + p * x - (u 0 * (x - ss) * (x - sm) + p) * sm) -
        (((x - ss) * u 1 - u 0 * (x - ss) * (x - sm) * n 0) * ((x - ss) * u 1 - u 0 * (x - ss) * (x - sm) * n 0) +
          ((x - ss) * u 2 - u 0 * (x - ss) * (x - sm) * n 1) * ((x - ss) * u 2 - u 0 * (x - ss) * (x - sm) * n 1)) =
        2 * u 0 * p / (G.g - 1) * ((x - ss) * (x - ss)) - p * p + (u 0 * (x - ss) * (x - sm) + p) * (u 0 * (x - ss) * (x - sm) + p) := by
      rw [hE, e1, e2]
      field_simp
      rw [hx]
      linear_combination (-(u 0 * u 0 * (x - ss) * (x - ss) * (x - sm) * (x - sm) * (G.g - 1))) * hn
    have := mul_self_nonneg (u 0 * (x - ss) * (x - sm) + p)
    linarith
  have := key.smul (inv_pos.2 hmm)
  rwa [smul_smul, inv_mul_cancel₀ hmm.ne', one_smul] at this

theorem star_right (h : Adm G u) (hn : n 0 * n 0 + n 1 * n 1 = 1) {ss sm : ℝ} (hs : Gas.varsVn u n + cSide G u ≤ ss) (hm : sm < ss) :
    Pos (star u n (Gas.varsVn u n) (G.varsP u) ss sm) := by
  have := star_left (n := -n) h (by simpa using hn) (ss := -ss) (sm := -sm) (by rw [varsVn_neg]; linarith) (by linarith)
  rwa [varsVn_neg, star_swap] at this

/-- HLLC: the speed of the left wave, if it moves to the left. -/
theorem hllc_splits (hg : 4 ≤ 3 * G.g) (hl : Adm G ul) (hr : Adm G ur) (hn : n 0 * n 0 + n 1 * n 1 = 1) :
    Splits G (hllc G ul ur n) 1 (max 0 (- slOf G ul ur n)) ul n := by
  obtain ⟨o1, o2⟩ := C21_wave_order hg hl hr n
  have hps := C21_star_pressure hl hr n
  have wl := (waveL_le (Gas.varsVn ul n) (cSide G ul) (roeOf G ul ur n)).1
  change slOf G ul ur n ≤ _ at wl
  have wr : Gas.varsVn ur n + cSide G ur ≤ srOf G ul ur n := (waveR_ge (Gas.varsVn ur n) (cSide G ur) (roeOf G ul ur n)).1
  have vl := sl_lt_vn (ur := ur) (n := n) hl
  have vr := vn_lt_sr (ul := ul) (n := n) hr
  have fl := eulerFlux_eq (G := G) hl.rho' n
  have fr := eulerFlux_eq (G := G) hr.rho' n
  unfold hllc
  generalize slOf G ul ur n = sl at *
  generalize srOf G ul ur n = sr at *
  generalize smOf G ul ur n = sm at *
  have pl := star_left hl hn wl o1
  have pr := star_right hr hn wr o2
  have r1 := fun i => (C21_rankine_hugoniot (p := G.varsP ul) hl.rho' hn rfl o1.ne vl.ne i).2
  have r2 := fun i => (C21_rankine_hugoniot (p := G.varsP ur) hr.rho' hn rfl o2.ne' vr.ne' i).2
  set sL := star ul n (Gas.varsVn ul n) (G.varsP ul) sl sm
  set sR := star ur n (Gas.varsVn ur n) (G.varsP ur) sr sm
  rw [hps] at r1
  generalize ur 0 * (Gas.varsVn ur n - sr) * (Gas.varsVn ur n - sm) + G.varsP ur = ps at *
  rw [← fl] at r1
  rw [← fr] at r2
  have jump : ∀ i, G.eulerFlux ur n i + sr * (sR i - ur i) = G.eulerFlux ul n i + sl * (sL i - ul i) + sm * (sR i - sL i) := by
    intro i
    have d : Gas.dirFlux sR n sm ps i - Gas.dirFlux sL n sm ps i = sm * (sR i - sL i) := by
      fin_cases i <;> simp [Gas.dirFlux] <;> ring
    linarith [r1 i, r2 i]
  refine ⟨le_max_left _ _, ?_⟩
  unfold hllcCore
  rw [← fl, ← fr]
  by_cases h1 : sl > 0
  · rw [if_pos h1, max_eq_left (by linarith)]
    exact ⟨0, Or.inl ⟨rfl, rfl⟩, by simp⟩
  · have h1' : sl ≤ 0 := not_lt.1 h1
    rw [if_neg h1, max_eq_right (by linarith)]
    by_cases h2 : sm > 0
    · rw [if_pos ⟨h1', h2⟩]
      refine ⟨(- sl) • sL, ?_, ?_⟩
      · rcases h1'.eq_or_lt with e | hneg
        · exact Or.inl ⟨by linarith, by rw [e]; simp⟩
        · exact Or.inr (pl.smul (by linarith))
      · funext i
        simp only [Pi.add_apply, Pi.sub_apply, Pi.smul_apply, smul_eq_mul]
        change G.eulerFlux ul n i + sl * (sL i - ul i) = _
        ring
    · have h2' : sm ≤ 0 := not_lt.1 h2
      rw [if_neg (fun h => h2 h.2)]
      by_cases h3 : sr ≥ 0
      · rw [if_pos ⟨h2', h3⟩]
        refine ⟨(sm - sl) • sL + (- sm) • sR, Or.inr ?_, ?_⟩
        · exact (pl.smul (by linarith)).add_cone (Cone.smul (Or.inr pr) (by linarith))
        · funext i
          simp only [Pi.add_apply, Pi.sub_apply, Pi.smul_apply, smul_eq_mul]
          change G.eulerFlux ur n i + sr * (sR i - ur i) = _
          rw [jump i]
          ring
      · rw [if_neg (fun h => h3 h.2)]
        refine ⟨((- sl) • ul + G.eulerFlux ul n) + ((0 : ℝ) • ur - G.eulerFlux ur n), Or.inr ?_, ?_⟩
        · exact (wave_left hl hn (by linarith)).add (wave_right hr hn (by push Not at h3; linarith))
        · funext i
          simp only [Pi.add_apply, Pi.sub_apply, Pi.smul_apply, smul_eq_mul]
          ring

/-! ### Van Leer -/

/-- Part of the split flux that enters from the right, on a state. -/
noncomputable def vlIn (G : Gas) (u : St) (n : V2) : St := vlMinus G.g u n (Gas.varsVn u n) (G.varsP u) (cSide G u)

theorem vlIn_sub (h : Adm G u) (h1 : - cSide G u ≤ Gas.varsVn u n) (h2 : Gas.varsVn u n ≤ cSide G u) :
    vlIn G u n = - ![u 0 * (cSide G u - Gas.varsVn u n) ^ 2 / (4 * cSide G u),
      u 0 * (cSide G u - Gas.varsVn u n) ^ 2 / (4 * cSide G u) * (Gas.vel u 0 + (-2 * cSide G u - Gas.varsVn u n) / G.g * n 0),
      u 0 * (cSide G u - Gas.varsVn u n) ^ 2 / (4 * cSide G u) * (Gas.vel u 1 + (-2 * cSide G u - Gas.varsVn u n) / G.g * n 1),
      u 0 * (cSide G u - Gas.varsVn u n) ^ 2 / (4 * cSide G u) * ((Gas.vel u 0 * Gas.vel u 0 + Gas.vel u 1 * Gas.vel u 1 - Gas.varsVn u n * Gas.varsVn u n) / 2 +
        ((G.g - 1) * Gas.varsVn u n - 2 * cSide G u) ^ 2 / (2 * (G.g * G.g - 1)))] := by
  have hc := h.c_pos
  have hv0 : Gas.vel u 0 = u 1 / u 0 := rfl
  have hv1 : Gas.vel u 1 = u 2 / u 0 := rfl
  have hf : -u 0 * cSide G u * (Gas.varsVn u n / cSide G u - 1) ^ 2 / 4 = - (u 0 * (cSide G u - Gas.varsVn u n) ^ 2 / (4 * cSide G u)) := by
    field_simp; ring
  unfold vlIn vlMinus
  simp only [hf, hv0, hv1]
  rw [if_neg (by rw [gt_iff_lt, not_lt, div_le_one hc]; exact h2), if_neg (by rw [not_lt, le_div_iff₀ hc]; linarith)]
  generalize u 0 * (cSide G u - Gas.varsVn u n) ^ 2 / (4 * cSide G u) = m
  funext i
  fin_cases i <;> simp <;> exact Or.inl (by ring)

/-- What a state sends through a face to its left is in the cone. -/
theorem vlIn_cone (h : Adm G u) (h3 : G.g ≤ 3) (hn : n 0 * n 0 + n 1 * n 1 = 1) : Cone (- vlIn G u n) := by
  have hc := h.c_pos
  have hg := h.g1
  by_cases h1 : Gas.varsVn u n < - cSide G u
  · have : vlIn G u n = G.eulerFlux u n := by
      have k1 : Gas.varsVn u n / cSide G u < -1 := by rw [div_lt_iff₀ hc]; linarith
      unfold vlIn vlMinus
      simp only
      rw [if_neg (by linarith), if_pos k1, eulerFlux_eq h.rho']
    rw [this]
    have := wave_right h hn (s := 0) (by linarith)
    rw [zero_smul, zero_sub] at this
    exact Or.inr this
  · by_cases h2 : cSide G u < Gas.varsVn u n
    · have : vlIn G u n = 0 := by
        unfold vlIn vlMinus
        simp only
        rw [if_pos (by rw [gt_iff_lt, lt_div_iff₀ hc]; linarith)]
      rw [this, neg_zero]; exact Or.inl rfl
    · rw [vlIn_sub h (not_lt.1 h1) (not_lt.1 h2), neg_neg]
      rcases (not_lt.1 h2).eq_or_lt with e | hlt
      · rw [e]; left
        funext i
        fin_cases i <;> simp
      · right
        have hY : 0 < 2 * cSide G u - (G.g - 1) * Gas.varsVn u n := by
          rcases le_or_gt (Gas.varsVn u n) 0 with h0 | h0 <;> nlinarith
        have hw := pos_of_normal (m := u 0 * (cSide G u - Gas.varsVn u n) ^ 2 / (4 * cSide G u)) hn
          (div_pos (mul_pos h.rho (pow_pos (by linarith) 2)) (by linarith)) (Gas.vel u) (Gas.varsVn u n)
          (w := Gas.varsVn u n + (-2 * cSide G u - Gas.varsVn u n) / G.g)
          (e := (Gas.vel u 0 * Gas.vel u 0 + Gas.vel u 1 * Gas.vel u 1 - Gas.varsVn u n * Gas.varsVn u n) / 2 +
            ((G.g - 1) * Gas.varsVn u n - 2 * cSide G u) ^ 2 / (2 * (G.g * G.g - 1))) ?_ rfl
        · rwa [add_sub_cancel_left] at hw
        · have hgg : 0 < G.g * G.g - 1 := by nlinarith
          have e1 : Gas.varsVn u n + (-2 * cSide G u - Gas.varsVn u n) / G.g = - (2 * cSide G u - (G.g - 1) * Gas.varsVn u n) / G.g := by
            field_simp; ring
          have e2 : ((G.g - 1) * Gas.varsVn u n - 2 * cSide G u) ^ 2 = (2 * cSide G u - (G.g - 1) * Gas.varsVn u n) ^ 2 := by ring
          rw [e1, e2]
          generalize 2 * cSide G u - (G.g - 1) * Gas.varsVn u n = Y at *
          have : -Y / G.g * (-Y / G.g) < Y ^ 2 / (G.g * G.g - 1) := by
            rw [div_mul_div_comm, neg_mul_neg, ← pow_two Y]
            exact div_lt_div_of_pos_left (by positivity) hgg (by linarith)
          have e3 : 2 * ((Gas.vel u 0 * Gas.vel u 0 + Gas.vel u 1 * Gas.vel u 1 - Gas.varsVn u n * Gas.varsVn u n) / 2 + Y ^ 2 / (2 * (G.g * G.g - 1))) =
            Gas.vel u 0 * Gas.vel u 0 + Gas.vel u 1 * Gas.vel u 1 - Gas.varsVn u n * Gas.varsVn u n + Y ^ 2 / (G.g * G.g - 1) := by field_simp
          rw [e3]
          linarith

/-- The scalar inequality behind `vlIn_add`. -/
theorem vl_key {g y : ℝ} (h1 : 1 < g) (h3 : g ≤ 3) (hy0 : 0 ≤ y) (hy1 : y ≤ 1 / 2) :
    y * (3 - 4 * y) ^ 2 / (1 - y) + y * (3 - g + 4 * y * (g - 1)) ^ 2 / (g * g - 1) < 2 * g / (g - 1) := by
  have a1 : y * (3 - 4 * y) ^ 2 / (1 - y) ≤ 3 / 2 := by
    rw [div_le_iff₀ (by linarith)]
    nlinarith [mul_nonneg (sub_nonneg.2 hy1) (sq_nonneg (y - 0.3232)), sq_nonneg (y - 0.3232), mul_nonneg hy0 (sq_nonneg (y - 0.3232))]
  have a2 : y * (3 - g + 4 * y * (g - 1)) ^ 2 / (g * g - 1) ≤ (g + 1) / (2 * (g - 1)) := by
    have hgg : 0 < g * g - 1 := by nlinarith
    have b0 : 0 ≤ 3 - g + 4 * y * (g - 1) := by nlinarith [mul_nonneg hy0 (sub_nonneg.2 h1.le)]
    have b1 : 3 - g + 4 * y * (g - 1) ≤ g + 1 := by nlinarith
    have b2 : (3 - g + 4 * y * (g - 1)) ^ 2 ≤ (g + 1) ^ 2 := pow_le_pow_left₀ b0 b1 2
    have b3 : y * (3 - g + 4 * y * (g - 1)) ^ 2 ≤ 1 / 2 * (g + 1) ^ 2 := mul_le_mul hy1 b2 (sq_nonneg _) (by norm_num)
    rw [div_le_div_iff₀ hgg (by linarith)]
    have := mul_le_mul_of_nonneg_right b3 (show 0 ≤ 2 * (g - 1) by linarith)
    nlinarith
  have a3 : (g + 1) / (2 * (g - 1)) = 1 / 2 + 1 / (g - 1) := by
    have : g - 1 ≠ 0 := by linarith
    field_simp; ring
  have a4 : 2 * g / (g - 1) = 2 + 2 * (1 / (g - 1)) := by
    have : g - 1 ≠ 0 := by linarith
    field_simp; ring
  have a5 : 0 < 1 / (g - 1) := by have : 0 < g - 1 := by linarith
                                  positivity
  linarith

/-- What a state keeps if it moves with the sound relative to the fluid, less what it sends to the left. -/
theorem vlIn_add (h : Adm G u) (h3 : G.g ≤ 3) (hn : n 0 * n 0 + n 1 * n 1 = 1) (hs : Gas.varsVn u n < cSide G u) :
    Pos ((cSide G u - Gas.varsVn u n) • u + vlIn G u n) := by
  have hc := h.c_pos
  have hg := h.g1
  by_cases h1 : Gas.varsVn u n < - cSide G u
  · have : vlIn G u n = G.eulerFlux u n := by
      have k1 : Gas.varsVn u n / cSide G u < -1 := by rw [div_lt_iff₀ hc]; linarith
      unfold vlIn vlMinus
      simp only
      rw [if_neg (by linarith), if_pos k1, eulerFlux_eq h.rho']
    rw [this]
    exact wave_left h hn le_rfl
  · have h1' := not_lt.1 h1
    rw [vlIn_sub h h1' hs.le]
    have e3 := energy_eq h
    have e1 := mom1_eq h.rho'
    have e2 := mom2_eq h.rho'
    have hcq := h.c_sq
    have hr := h.rho
    have hvn : Gas.varsVn u n = Gas.vel u 0 * n 0 + Gas.vel u 1 * n 1 := rfl
    obtain ⟨y, hy⟩ : ∃ y, Gas.varsVn u n = cSide G u * (1 - 4 * y) := ⟨(1 - Gas.varsVn u n / cSide G u) / 4, by field_simp; ring⟩
    have hy0 : 0 < y := by
      by_contra hh; push Not at hh
      nlinarith
    have hy1 : y ≤ 1 / 2 := by
      by_contra hh; push Not at hh
      nlinarith
    have hp : G.varsP u = cSide G u * cSide G u * u 0 / G.g := by rw [hcq]; field_simp
    have hm : u 0 * (cSide G u - Gas.varsVn u n) ^ 2 / (4 * cSide G u) = (cSide G u - Gas.varsVn u n) * u 0 * y := by
      rw [hy]; field_simp; ring
    rw [hm]
    have h1y : 0 < 1 - y := by linarith
    have ha : 0 < cSide G u - Gas.varsVn u n := by linarith
    have hw := pos_of_normal (m := (cSide G u - Gas.varsVn u n) * u 0 * (1 - y)) hn (by positivity) (Gas.vel u) (Gas.varsVn u n)
      (w := Gas.varsVn u n - y * ((-2 * cSide G u - Gas.varsVn u n) / G.g) / (1 - y))
      (e := (u 3 / u 0 - y * ((Gas.vel u 0 * Gas.vel u 0 + Gas.vel u 1 * Gas.vel u 1 - Gas.varsVn u n * Gas.varsVn u n) / 2 +
            ((G.g - 1) * Gas.varsVn u n - 2 * cSide G u) ^ 2 / (2 * (G.g * G.g - 1)))) / (1 - y)) ?_ hvn
    · convert hw using 1
      have hg0 : G.g ≠ 0 := by linarith
      have hr' := hr.ne'
      have h1y' := h1y.ne'
      funext i
      fin_cases i
      · simp; ring
      · simp
        rw [e1]; field_simp; ring
      · simp
        rw [e2]; field_simp; ring
      · simp
        field_simp; ring
    · have key := mul_lt_mul_of_pos_left (vl_key hg h3 hy0.le hy1) (show 0 < cSide G u * cSide G u / (G.g * G.g) by positivity)
      have hE : u 3 / u 0 = cSide G u * cSide G u / (G.g * (G.g - 1)) + (Gas.vel u 0 * Gas.vel u 0 + Gas.vel u 1 * Gas.vel u 1) / 2 := by
        have : G.g - 1 ≠ 0 := by linarith
        rw [e3, hp]; field_simp
      rw [hE, hy]
      rw [add_assoc (_ - _)]
      generalize Gas.vel u 0 * Gas.vel u 0 + Gas.vel u 1 * Gas.vel u 1 = q at *
      have hg1 : G.g - 1 ≠ 0 := by linarith
      have hgg : G.g * G.g - 1 = (G.g - 1) * (G.g + 1) := by ring
      have hg2 : G.g + 1 ≠ 0 := by linarith
      have hg0 : G.g ≠ 0 := by linarith
      have h1y' := h1y.ne'
      have hid : 2 * ((cSide G u * cSide G u / (G.g * (G.g - 1)) + q / 2 - y * ((q - cSide G u * (1 - 4 * y) * (cSide G u * (1 - 4 * y))) / 2 +
            ((G.g - 1) * (cSide G u * (1 - 4 * y)) - 2 * cSide G u) ^ 2 / (2 * (G.g * G.g - 1)))) / (1 - y)) -
          ((cSide G u * (1 - 4 * y) - y * ((-2 * cSide G u - cSide G u * (1 - 4 * y)) / G.g) / (1 - y)) *
            (cSide G u * (1 - 4 * y) - y * ((-2 * cSide G u - cSide G u * (1 - 4 * y)) / G.g) / (1 - y)) -
            cSide G u * (1 - 4 * y) * (cSide G u * (1 - 4 * y)) + q) =
          (cSide G u * cSide G u / (G.g * G.g) * (2 * G.g / (G.g - 1)) - cSide G u * cSide G u / (G.g * G.g) *
            (y * (3 - 4 * y) ^ 2 / (1 - y) + y * (3 - G.g + 4 * y * (G.g - 1)) ^ 2 / (G.g * G.g - 1))) / (1 - y) := by
        rw [hgg]
        field_simp
        ring
      have := div_pos (sub_pos.2 key) h1y
      linarith

/-- Van Leer: the speed of sound less the outward velocity, if positive. -/
theorem vanLeer_splits (h3 : G.g ≤ 3) (hl : Adm G ul) (hr : Adm G ur) (hn : n 0 * n 0 + n 1 * n 1 = 1) :
    Splits G (vanLeer G ul ur n) 1 (max 0 (cSide G ul - Gas.varsVn ul n)) ul n := by
  have hcons := C15_vanLeer hl n
  refine ⟨le_max_left _ _, (max 0 (cSide G ul - Gas.varsVn ul n)) • ul + vlIn G ul n + - vlIn G ur n, ?_, ?_⟩
  · by_cases h : Gas.varsVn ul n < cSide G ul
    · rw [max_eq_right (by linarith)]
      exact Or.inr ((vlIn_add hl h3 hn h).add_cone (vlIn_cone hr h3 hn))
    · have h' := not_lt.1 h
      rw [max_eq_left (by linarith), zero_smul, zero_add]
      have : vlIn G ul n = 0 := by
        rcases h'.eq_or_lt with e | e
        · rw [vlIn_sub hl (by linarith [hl.c_pos]) e.symm.le, ← e]
          funext i; fin_cases i <;> simp
        · unfold vlIn vlMinus
          simp only
          rw [if_pos (by rw [gt_iff_lt, lt_div_iff₀ hl.c_pos]; linarith)]
      rw [this, zero_add]
      rcases vlIn_cone hr h3 hn with e | e
      · exact Or.inl ⟨rfl, e⟩
      · exact Or.inr e
  · rw [← hcons]
    funext i
    simp only [vanLeer, vlIn, Pi.add_apply, Pi.sub_apply, Pi.smul_apply, Pi.neg_apply, smul_eq_mul]
    ring

end Flux
end FVENS
