import Verif.Flux.JacHllc

/-!
# Flux Jacobians seen from the other side of a face (C83)

A face is stored once, with one of its cells on the left. Which one is an accident of the numbering; on several ranks each rank sees
itself on the left. The blocks a face contributes should not depend on this.
-/

namespace FVENS
namespace Flux

variable {G : Gas} {a b : St} {n : V2}

theorem dEulerFlux_neg (G : Gas) (u : St) (n : V2) (i k : Fin 4) : G.dEulerFlux u (-n) i k = -G.dEulerFlux u n i k := by
  fin_cases i <;> fin_cases k <;> simp [Gas.dEulerFlux, Gas.dVnRow, dot] <;> ring

/-- Admissible states form an open set. -/
theorem _root_.FVENS.Flux.Adm.eventually (h : Adm G a) : ∀ᶠ x in nhds a, Adm G x := by
  have h1 : ∀ᶠ x in nhds a, 0 < x 0 := (HasGrad.coord 0 (u := a)).continuousAt.eventually (lt_mem_nhds h.rho)
  have h2 : ∀ᶠ x in nhds a, 0 < G.pressure x := (C03_pressure G a h.rho').continuousAt.eventually (lt_mem_nhds h.p)
  filter_upwards [h1, h2] with x k1 k2
  exact ⟨h.g1, k1, k2⟩

/-- The blocks of a face seen from the other side. -/
def FJ.swap (J : FJ) : FJ := ⟨J.dfdr, J.dfdl⟩

/-- Specification: the Jacobian routine gives the same two blocks when the sides of the face are exchanged. -/
def Mirror (J : St → St → V2 → FJ) (a b : St) (n : V2) : Prop := J b a (-n) = (J a b n).swap

/-- Exact Jacobians of conservative fluxes are mirrored. -/
theorem mirror_of_exact {F : St → St → V2 → St} {J : St → St → V2 → FJ} {a b : St} {n : V2}
    (h : IsFluxJac (fun x y => F x y n) (J a b n) a b) (h' : IsFluxJac (fun x y => F x y (-n)) (J b a (-n)) b a)
    (hl : ∀ᶠ x in nhds a, ∀ i, F b x (-n) i = -F x b n i) (hr : ∀ᶠ y in nhds b, ∀ i, F y a (-n) i = -F a y n i) : Mirror J a b n := by
  have e1 : (J b a (-n)).dfdl = (J a b n).dfdr := by
    funext i
    have h1 : HasGrad (fun y => F a y n i) (fun k => (J b a (-n)).dfdl i k) b := by
      have := ((h' i).1).cmul (-1)
      refine (this.congr ?_).congr_of_eventuallyEq (hr.mono fun y hy => ?_)
      · funext k; simp
      · have := hy i; simp only at this ⊢; rw [this]; ring
    exact h1.unique (h i).2
  have e2 : (J b a (-n)).dfdr = (J a b n).dfdl := by
    funext i
    have h1 : HasGrad (fun x => F x b n i) (fun k => -(J b a (-n)).dfdr i k) a := by
      have := ((h' i).2).cmul (-1)
      refine (this.congr ?_).congr_of_eventuallyEq (hl.mono fun y hy => ?_)
      · funext k; simp
      · have := hy i; simp only at this ⊢; rw [this]; ring
    have := h1.unique (h i).1
    funext k
    have := congrFun this k
    linarith
  unfold Mirror FJ.swap
  rw [← e1, ← e2]


/-- C83: Lax-Friedrichs, for all states. -/
theorem C83_llf (G : Gas) (a b : St) (n : V2) : Mirror (llfJac G) a b n := by
  have e : llfEigJ (Gas.varsVn b (-n)) (cSide G b) (Gas.varsVn a (-n)) (cSide G a) = llfEigJ (Gas.varsVn a n) (cSide G a) (Gas.varsVn b n) (cSide G b) := by
    simp only [llfEigJ, varsVn_neg, abs_neg]; split_ifs <;> linarith
  unfold Mirror llfJac FJ.swap
  simp only [e, dEulerFlux_neg]
  congr 1 <;> funext i j <;> split_ifs <;> ring

/-- C83: HLL, for all admissible states. -/
theorem C83_hll (ha : Adm G a) (hb : Adm G b) (n : V2) : Mirror (hllJac G) a b n := by
  obtain ⟨e1, e2⟩ := slsr_swap ha hb n
  obtain ⟨f1, f2⟩ := hllT_swap (sl_lt_sr (n := n) ha hb)
  unfold Mirror hllJac FJ.swap
  simp only [e1, e2, f1, f2, dEulerFlux_neg]
  congr 1 <;> funext i j <;> split_ifs <;> ring

/-- C83: AUSM, if the interface Mach number is not zero. -/
theorem C83_ausm_partial (ha : Adm G a) (hb : Adm G b) (n : V2)
    (h0 : ausmML (Gas.varsVn a n / cSide G a) + ausmMR (Gas.varsVn b n / cSide G b) ≠ 0) : Mirror (ausmJac G) a b n := by
  refine mirror_of_exact (F := fun x y n => ausm G x y n) (C18_ausm_exact ha hb n h0) (C18_ausm_exact hb ha (-n) ?_)
    (.of_forall fun x i => C16_ausm G x b n i) (.of_forall fun y i => C16_ausm G a y n i)
  simp only [varsVn_neg, neg_div]
  rw [(ausm_split_neg _ 0).1, (ausm_split_neg _ 0).2.1]
  intro h; apply h0; linarith

/-- The derivatives of the Roe averages change places with the sides. -/
theorem dRoe_swap (ha : Adm G a) (hb : Adm G b) (n : V2) :
    let d := dRoeJ G.g a b n (Gas.vel a) (G.varsH a) (Gas.vel b) (G.varsH b) (G.dVarsH b)
    let e := dRoeI G.g b a (-n) (Gas.vel b) (G.varsH b) (Gas.vel a) (G.varsH a) (G.dVarsH b)
    e.drho = d.drho ∧ e.dvx = d.dvx ∧ e.dvy = d.dvy ∧ e.dvm2 = d.dvm2 ∧ e.dvn = (fun k => -d.dvn k) ∧ e.dH = d.dH ∧ e.dc = d.dc := by
  intro d e
  have hd := C18_roe_averages_right ha hb n
  have he := C18_roe_averages_left hb ha (-n)
  have hev : ∀ᶠ v in nhds b, roeOf G v a (-n) = { roeOf G a v n with R := 1 / (roeOf G a v n).R, vn := -(roeOf G a v n).vn } :=
    hb.eventually.mono fun v hv => roe_swap ha.rho hv.rho n
  refine ⟨?_, ?_, ?_, ?_, ?_, ?_, ?_⟩
  · exact he.rho.unique (hd.rho.congr_of_eventuallyEq (hev.mono fun v hv => by simp only [hv]))
  · exact he.vx.unique (hd.vx.congr_of_eventuallyEq (hev.mono fun v hv => by simp only [hv]))
  · exact he.vy.unique (hd.vy.congr_of_eventuallyEq (hev.mono fun v hv => by simp only [hv]))
  · exact he.vm2.unique (hd.vm2.congr_of_eventuallyEq (hev.mono fun v hv => by simp only [hv]))
  · exact he.vn.unique (hd.vn.neg.congr_of_eventuallyEq (hev.mono fun v hv => by simp only [hv]))
  · exact he.H.unique (hd.H.congr_of_eventuallyEq (hev.mono fun v hv => by simp only [hv]))
  · exact he.c.unique (hd.c.congr_of_eventuallyEq (hev.mono fun v hv => by simp only [hv]))

theorem sgn_neg {x : ℝ} (h : x ≠ 0) : sgn (-x) = -sgn x := by
  unfold sgn
  rcases lt_or_gt_of_ne h with h | h
  · rw [if_pos (by linarith), if_neg (by linarith)]; norm_num
  · rw [if_neg (by linarith), if_pos (by linarith)]

theorem roeL_swap (x : Avg) (R' : ℝ) : roeL0 { x with R := R', vn := -x.vn } = ![roeL0 x 3, roeL0 x 1, roeL0 x 2, roeL0 x 0] ∧
    roeL { x with R := R', vn := -x.vn } = ![roeL x 3, roeL x 1, roeL x 2, roeL x 0] := by
  have h1 : |-x.vn - x.c| = |x.vn + x.c| := by rw [← abs_neg]; congr 1; ring
  have h2 : |-x.vn + x.c| = |x.vn - x.c| := by rw [← abs_neg]; congr 1; ring
  constructor
  · funext k; fin_cases k <;> simp [roeL0, h1, h2]
  · funext k; fin_cases k <;> simp [roeL, roeL0, h1, h2]

theorem roeDL_swap (x : Avg) (R' : ℝ) (d e : DAvg) (h1 : e.dvn = fun k => -d.dvn k) (h2 : e.dc = d.dc) (h0 : x.vn ≠ 0) (hp : x.vn + x.c ≠ 0)
    (hm : x.vn - x.c ≠ 0) : roeDL { x with R := R', vn := -x.vn } e = ![roeDL x d 3, roeDL x d 1, roeDL x d 2, roeDL x d 0] := by
  obtain ⟨e1, e2⟩ := roeL_swap x R'
  have s1 : sgn (-x.vn - x.c) = -sgn (x.vn + x.c) := by rw [← sgn_neg hp]; congr 1; ring
  have s2 : sgn (-x.vn + x.c) = -sgn (x.vn - x.c) := by rw [← sgn_neg hm]; congr 1; ring
  have s3 := sgn_neg h0
  have e3 : roeDL0 { x with R := R', vn := -x.vn } e = ![roeDL0 x d 3, roeDL0 x d 1, roeDL0 x d 2, roeDL0 x d 0] := by
    funext i k; fin_cases i <;> simp [roeDL0, s1, s2, s3, h1, h2] <;> ring
  funext i k
  simp only [roeDL, e1, e2, e3, h2]
  fin_cases i <;> simp [roeDL]

/-- Left block from one side, right block from the other. -/
theorem roe_mirror_half (ha : Adm G a) (hb : Adm G b) (n : V2) (h0 : (roeOf G a b n).vn ≠ 0)
    (hp : (roeOf G a b n).vn + (roeOf G a b n).c ≠ 0) (hm : (roeOf G a b n).vn - (roeOf G a b n).c ≠ 0) :
    (roeJac G b a (-n)).dfdl = (roeJac G a b n).dfdr := by
  obtain ⟨d1, d2, d3, d4, d5, d6, d7⟩ := dRoe_swap ha hb n
  funext i k
  rw [← neg_inj, roeJac_rowL, roeJac_rowR]
  simp only [roeRowL, roeRowR]
  rw [roe_swap ha.rho hb.rho, roeDL_swap _ _ _ _ d5 d7 h0 hp hm, (roeL_swap _ _).2, dEulerFlux_neg]
  generalize dRoeJ G.g a b n (Gas.vel a) (G.varsH a) (Gas.vel b) (G.varsH b) (G.dVarsH b) = d at *
  generalize dRoeI G.g b a (-n) (Gas.vel b) (G.varsH b) (Gas.vel a) (G.varsH a) (G.dVarsH b) = e at *
  have hv : Gas.dVarsVn b (-n) = fun k => -Gas.dVarsVn b n k := by
    funext k; fin_cases k <;> simp [Gas.dVarsVn] <;> ring
  have h1 : (![-1, 0, 0, 0] : St) = fun k => -(![1, 0, 0, 0] : St) k := by
    funext k; fin_cases k <;> simp
  rw [hv, h1]
  generalize (![1, 0, 0, 0] : St) = one
  generalize roeOf G a b n = x at *
  simp only [varsVn_neg]
  generalize roeDL x d = dl
  generalize roeL x = l
  fin_cases i <;> simp [roeDADU, roeDLA, roeLA, d1, d2, d3, d4, d5, d6, d7] <;> ring

/-- C83: Roe, with or without the entropy fix, if the averaged state is neither at rest across the face nor sonic. -/
theorem C83_roe_partial (ha : Adm G a) (hb : Adm G b) (n : V2) (h0 : (roeOf G a b n).vn ≠ 0)
    (hp : (roeOf G a b n).vn + (roeOf G a b n).c ≠ 0) (hm : (roeOf G a b n).vn - (roeOf G a b n).c ≠ 0) : Mirror (roeJac G) a b n := by
  have h1 := roe_mirror_half ha hb n h0 hp hm
  have h2 := roe_mirror_half hb ha (-n) (by rw [roe_swap ha.rho hb.rho]; exact neg_ne_zero.2 h0)
    (by rw [roe_swap ha.rho hb.rho]; intro h; apply hm; simp only at h; linarith)
    (by rw [roe_swap ha.rho hb.rho]; intro h; apply hp; simp only at h; linarith)
  rw [neg_neg] at h2
  unfold Mirror FJ.swap
  rw [← h1, h2]

/-- C83: HLLC, if no two of the compared speeds are equal. -/
theorem C83_hllc_partial (hg : 4 ≤ 3 * G.g) (ha : Adm G a) (hb : Adm G b) (n : V2) (hn : n 0 * n 0 + n 1 * n 1 = 1) (ht : NoTie G a b n) :
    Mirror (hllcJac G) a b n := by
  obtain ⟨e1, e2⟩ := slsr_swap ha hb n
  refine mirror_of_exact (F := fun x y n => hllc G x y n) (C18_hllc_exact ha hb n ht) (C18_hllc_exact hb ha (-n) ⟨?_, ?_, ?_, ?_, ?_⟩)
    (ha.eventually.mono fun x hx i => C16_hllc hg hx hb hn i) (hb.eventually.mono fun y hy i => C16_hllc hg ha hy hn i)
  · rw [roe_swap ha.rho hb.rho, varsVn_neg]; intro h; apply ht.r; simp only at h; linarith
  · rw [roe_swap ha.rho hb.rho, varsVn_neg]; intro h; apply ht.l; simp only at h; linarith
  · rw [e1]; exact neg_ne_zero.2 ht.sr
  · rw [sm_swap ha hb]; exact neg_ne_zero.2 ht.sm
  · rw [e2]; exact neg_ne_zero.2 ht.sl

/-- Concrete cases of the hypotheses: two supersonic states (AUSM: interface Mach number not zero; Roe: neither at rest nor sonic). -/
example : Mirror (roeJac air) uS4 uS5 ![1, 0] := by
  obtain ⟨h1, h2⟩ := roe_uS
  have hc := roe_c_pos (n := ![1, 0]) adm_uS4 adm_uS5
  exact C83_roe_partial adm_uS4 adm_uS5 _ (by rw [h1]; norm_num) (by rw [h1]; linarith) (by rw [h1]; linarith)

/-- Derivative of the mass flux in the direction of the normal momentum. -/
def massN (B : Fin 4 → St) (n : V2) : ℝ := n 0 * B 0 1 + n 1 * B 0 2

/-- C83 fails for AUSM at every stationary contact between different densities. -/
theorem C83_ausm_refuted (ha : Adm G a) (hb : Adm G b) {p : ℝ} (h : Contact G a b n p) (hn : n 0 * n 0 + n 1 * n 1 = 1) (hab : a 0 ≠ b 0) :
    ¬ Mirror (ausmJac G) a b n := by
  intro hM
  have hv : Gas.varsVn b (-n) = 0 ∧ Gas.varsVn a (-n) = 0 := by rw [varsVn_neg, varsVn_neg, h.vl, h.vr, neg_zero]; exact ⟨rfl, rfl⟩
  have hca := ha.c_pos
  have hcb := hb.c_pos
  have ha0 := ha.rho
  have hb0 := hb.rho
  have e1 : massN (ausmJac G a b n).dfdr n = a 0 * cSide G a / (2 * b 0 * cSide G b) := by
    rw [← mul_one (_ / _), ← hn]
    simp [massN, ausmJac, ausmDR, h.vl, h.vr, ausmML, ausmMR, ausmDMR, ausmDM, sgn]
    field_simp
    ring
  have e2 : massN (ausmJac G b a (-n)).dfdl n = b 0 * cSide G b / (2 * b 0 * cSide G b) := by
    rw [← mul_one (_ / _), ← hn]
    simp [massN, ausmJac, ausmDL, hv.1, hv.2, ausmML, ausmMR, ausmDML, ausmDM, sgn]
    field_simp
    ring
  have := congrArg (fun J => massN J.dfdl n) hM
  simp only [FJ.swap] at this
  rw [e1, e2, div_left_inj' (by positivity)] at this
  have sq : ∀ u : St, Adm G u → G.varsP u = p → (u 0 * cSide G u) ^ 2 = G.g * p * u 0 := fun u hu hp => by
    have h0 := hu.rho
    have h1 := hu.p
    have h2 := hu.g1
    rw [mul_pow, cSide, Gas.soundSpeed, Real.sq_sqrt, hp]
    · field_simp
    · rw [varsP_eq hu.rho']; positivity
  have h4 := sq a ha h.pl
  rw [← this, sq b hb h.pr] at h4
  have hp : 0 < p := by rw [← h.pl, varsP_eq ha.rho']; exact ha.p
  have hg := ha.g1
  have : b 0 = a 0 := mul_left_cancel₀ (show G.g * p ≠ 0 by positivity) h4
  exact hab this.symm

/-- C83 fails for HLLC at every stationary contact between different densities. -/
theorem C83_hllc_refuted (ha : Adm G a) (hb : Adm G b) {p : ℝ} (h : Contact G a b n p) (hn : n 0 * n 0 + n 1 * n 1 = 1) (hab : a 0 ≠ b 0) :
    ¬ Mirror (hllcJac G) a b n := by
  intro hM
  have hv : Gas.varsVn b (-n) = 0 ∧ Gas.varsVn a (-n) = 0 := by rw [varsVn_neg, varsVn_neg, h.vl, h.vr, neg_zero]; exact ⟨rfl, rfl⟩
  have ha0 := ha.rho
  have hb0 := hb.rho
  have h1 := sl_lt_vn (ur := b) (n := n) ha
  have h2 := vn_lt_sr (ul := a) (n := n) hb
  rw [h.vl] at h1
  rw [h.vr] at h2
  obtain ⟨k1, k2⟩ := slsr_swap ha hb n
  have hsm : smOf G a b n = 0 := by simp [smOf, contact, h.vl, h.vr, h.pl, h.pr]
  have hsm' : smOf G b a (-n) = 0 := by rw [sm_swap ha hb, hsm, neg_zero]
  have hd := den_pos (n := n) ha hb
  rw [h.vl, h.vr, sub_zero, sub_zero] at hd
  have st : ∀ (u : St) (n : V2) (p ss : ℝ), ss ≠ 0 → star u n 0 p ss 0 = u := fun u n p ss hs => star_self hs
  have sI : ∀ (u : St) (n : V2) (p ss : ℝ) (dvn dp dss dsm : St) (k : Fin 4), ss ≠ 0 → k ≠ 0 →
      ss * dStarI u n 0 p ss 0 dvn dp dss dsm 0 k = u 0 * (dsm k - dvn k) := by
    intro u n p ss dvn dp dss dsm k hs hk
    simp [dStarI, hk]; field_simp; ring
  have sJ : ∀ (u : St) (n : V2) (p ss : ℝ) (dss dsm : St) (k : Fin 4), ss ≠ 0 →
      ss * dStarJ u n 0 p ss 0 dss dsm 0 k = u 0 * dsm k := by
    intro u n p ss dss dsm k hs
    simp [dStarJ]; field_simp; ring
  have mJ : ∀ (dsl dsr dv dp : St) (k : Fin 4), k ≠ 0 →
      dSmJ (a 0) (b 0) 0 0 p p (slOf G a b n) (srOf G a b n) dsl dsr dv dp k =
        (b 0 * dv k * srOf G a b n - dp k) / (b 0 * srOf G a b n - a 0 * slOf G a b n) := by
    intro dsl dsr dv dp k hk
    simp [dSmJ, hk]; field_simp
  have mI : ∀ (dsl dsr dv dp : St) (k : Fin 4), k ≠ 0 →
      dSmI (b 0) (a 0) 0 0 p p (-srOf G a b n) (-slOf G a b n) dsl dsr dv dp k =
        (b 0 * dv k * srOf G a b n + dp k) / (b 0 * srOf G a b n - a 0 * slOf G a b n) := by
    intro dsl dsr dv dp k hk
    have hd' : a 0 * -slOf G a b n - b 0 * -srOf G a b n = b 0 * srOf G a b n - a 0 * slOf G a b n := by ring
    simp only [dSmI, hk, if_false, sub_zero, zero_mul, mul_zero, zero_add, zero_sub, hd', sub_self, add_zero, sub_self]
    field_simp
  have hbn : b 1 * n 0 + b 2 * n 1 = 0 := by
    have := h.vr
    simp only [Gas.varsVn, Gas.vel, dot, Matrix.cons_val_zero, Matrix.cons_val_one] at this
    field_simp at this
    linarith
  have e1 : massN (hllcJac G a b n).dfdr n = b 0 * (srOf G a b n / (b 0 * srOf G a b n - a 0 * slOf G a b n)) := by
    simp only [massN, hllcJac, hsm, h.vl, h.vr, h.pl, h.pr, gt_iff_lt, not_lt_of_gt h1, if_false, lt_irrefl, and_false, le_refl, true_and, ge_iff_le, h2.le,
      if_true, st _ _ _ _ h2.ne', sub_self, mul_zero, zero_add, mul_sub (srOf G a b n), sI _ _ _ _ _ _ _ _ _ h2.ne' (show (1 : Fin 4) ≠ 0 by decide),
      sI _ _ _ _ _ _ _ _ _ h2.ne' (show (2 : Fin 4) ≠ 0 by decide), mJ _ _ _ _ _ (show (1 : Fin 4) ≠ 0 by decide), mJ _ _ _ _ _ (show (2 : Fin 4) ≠ 0 by decide)]
    simp [Gas.dEulerFlux, Gas.dVarsVn, delta, Gas.dPressure]
    have : n 0 * ((1 - G.g) * b 1 / b 0) + n 1 * ((1 - G.g) * b 2 / b 0) = 0 := by
      rw [show n 0 * ((1 - G.g) * b 1 / b 0) + n 1 * ((1 - G.g) * b 2 / b 0) = (1 - G.g) / b 0 * (b 1 * n 0 + b 2 * n 1) by ring, hbn, mul_zero]
    field_simp
    field_simp at this
    linear_combination (b 0 * srOf G a b n) * hn - this
  have e2 : massN (hllcJac G b a (-n)).dfdl n = a 0 * (srOf G a b n / (b 0 * srOf G a b n - a 0 * slOf G a b n)) := by
    have h1' : (0:ℝ) < - slOf G a b n := by linarith
    have h2' : ¬ (0:ℝ) < - srOf G a b n := by linarith
    simp only [massN, hllcJac, hsm', hv.1, hv.2, h.pl, h.pr, k1, k2, gt_iff_lt, h2', if_false, lt_irrefl, and_false, le_refl, true_and, ge_iff_le, h1'.le, if_true,
      st _ _ _ _ h1'.ne', sub_self, mul_zero, zero_add, sJ _ _ _ _ _ _ _ h1'.ne', mI _ _ _ _ _ (show (1 : Fin 4) ≠ 0 by decide),
      mI _ _ _ _ _ (show (2 : Fin 4) ≠ 0 by decide)]
    simp [Gas.dVarsVn, Gas.dPressure]
    have : n 0 * ((1 - G.g) * b 1 / b 0) + n 1 * ((1 - G.g) * b 2 / b 0) = 0 := by
      rw [show n 0 * ((1 - G.g) * b 1 / b 0) + n 1 * ((1 - G.g) * b 2 / b 0) = (1 - G.g) / b 0 * (b 1 * n 0 + b 2 * n 1) by ring, hbn, mul_zero]
    field_simp
    field_simp at this
    linear_combination (b 0 * srOf G a b n) * hn - this
  have := congrArg (fun J => massN J.dfdl n) hM
  simp only [FJ.swap] at this
  rw [e1, e2] at this
  refine hab (mul_right_cancel₀ ?_ this)
  positivity

/-- Eigenvalue derivatives at rest: the middle ones change when the sides do. -/
theorem roeDL_swap_rest (x : Avg) (R' : ℝ) (d e : DAvg) (h1 : e.dvn = fun k => -d.dvn k) (h2 : e.dc = d.dc) (h0 : x.vn = 0) (hc : 0 < x.c) :
    roeDL { x with R := R', vn := -x.vn } e = ![roeDL x d 3, fun k => roeDL x d 1 k - d.dvn k, fun k => roeDL x d 2 k - d.dvn k, roeDL x d 0] := by
  obtain ⟨e1, e2⟩ := roeL_swap x R'
  have hf : (0:ℝ) < fixeps := by norm_num [fixeps]
  have hdel : 0 < fixeps * x.c := mul_pos hf hc
  have hl0 : roeL0 x 1 = 0 ∧ roeL0 x 2 = 0 := by simp [roeL0, h0]
  have hl : roeL x 1 = fixeps * x.c / 2 ∧ roeL x 2 = fixeps * x.c / 2 := by
    simp only [roeL, hl0.1, hl0.2, harten, if_pos hdel]
    constructor <;> field_simp <;> ring
  have s1 : sgn (-x.vn - x.c) = -sgn (x.vn + x.c) := by rw [← sgn_neg (by rw [h0]; linarith)]; congr 1; ring
  have s2 : sgn (-x.vn + x.c) = -sgn (x.vn - x.c) := by rw [← sgn_neg (by rw [h0]; linarith)]; congr 1; ring
  have s3 : sgn (-x.vn) = sgn x.vn := by rw [h0, neg_zero]
  have e3 : roeDL0 { x with R := R', vn := -x.vn } e = ![roeDL0 x d 3, fun k => -roeDL0 x d 1 k, fun k => -roeDL0 x d 2 k, roeDL0 x d 0] := by
    funext i k; fin_cases i <;> simp [roeDL0, s1, s2, s3, h1, h2] <;> ring
  have s0 : sgn x.vn = 1 := by rw [h0]; simp [sgn]
  funext i k
  simp only [roeDL, e1, e2, e3, h2]
  fin_cases i
  · simp [roeDL]
  · simp only [Fin.mk_one, Matrix.cons_val, hl0.1, if_pos hdel, hl.1]
    simp [roeDL0, s0]
    field_simp
    ring
  · simp only [Fin.reduceFinMk, Matrix.cons_val, hl0.2, if_pos hdel, hl.2]
    simp [roeDL0, s0]
    field_simp
    ring
  · simp [roeDL]

/-- C83 fails for Roe at every stationary contact between different densities. -/
theorem C83_roe_refuted (ha : Adm G a) (hb : Adm G b) {p : ℝ} (h : Contact G a b n p) (hn : n 0 * n 0 + n 1 * n 1 = 1) (hab : a 0 ≠ b 0) :
    ¬ Mirror (roeJac G) a b n := by
  intro hM
  have hR : 0 < (roeOf G a b n).R := roe_R_pos ha.rho hb.rho
  have h0 : (roeOf G a b n).vn = 0 := by
    have h1 := h.vl
    have h2 := h.vr
    simp only [Gas.varsVn] at h1 h2
    have : (roeOf G a b n).vn = ((roeOf G a b n).R * dot (Gas.vel b) n + dot (Gas.vel a) n) / ((roeOf G a b n).R + 1) := by
      simp [roeOf, roeAvg, dot]; ring
    rw [this, h1, h2]; simp
  have hc := roe_c_pos (n := n) ha hb
  obtain ⟨d1, d2, d3, d4, d5, d6, d7⟩ := dRoe_swap ha hb n
  have hdvn : ∀ k : Fin 2, (dRoeJ G.g a b n (Gas.vel a) (G.varsH a) (Gas.vel b) (G.varsH b) (G.dVarsH b)).dvn k.succ.castSucc =
      (roeOf G a b n).R / (b 0 * ((roeOf G a b n).R + 1)) * n k := by
    have e : roeAvg G.g a b n (Gas.vel a) (G.varsH a) (Gas.vel b) (G.varsH b) = roeOf G a b n := rfl
    have hb0 := hb.rho
    intro k
    fin_cases k
    · simp [dRoeJ, e]; field_simp; simp
    · simp [dRoeJ, e]; field_simp; simp
  have key : ∀ k : Fin 4, k ≠ 0 → (dRoeJ G.g a b n (Gas.vel a) (G.varsH a) (Gas.vel b) (G.varsH b) (G.dVarsH b)).dvn k * (b 0 - a 0) = 0 := by
    intro k hk
    have := congrArg (fun J => - J.dfdl 0 k) hM
    simp only [FJ.swap] at this
    rw [roeJac_rowL, roeJac_rowR] at this
    simp only [roeRowL, roeRowR] at this
    rw [roe_swap ha.rho hb.rho, roeDL_swap_rest _ _ _ _ d5 d7 h0 hc, (roeL_swap _ _).2, dEulerFlux_neg] at this
    generalize dRoeJ G.g a b n (Gas.vel a) (G.varsH a) (Gas.vel b) (G.varsH b) (G.dVarsH b) = d at *
    generalize dRoeI G.g b a (-n) (Gas.vel b) (G.varsH b) (Gas.vel a) (G.varsH a) (G.dVarsH b) = e at *
    have hv : Gas.dVarsVn b (-n) = fun k => -Gas.dVarsVn b n k := by
      funext k; fin_cases k <;> simp [Gas.dVarsVn] <;> ring
    have h1 : (![-1, 0, 0, 0] : St) = fun k => -(![1, 0, 0, 0] : St) k := by
      funext k; fin_cases k <;> simp
    rw [hv, h1] at this
    generalize (![1, 0, 0, 0] : St) = one at *
    generalize roeOf G a b n = x at *
    simp only [varsVn_neg, h.vl, h.vr, h.pl, h.pr] at this
    generalize roeDL x d = dl at *
    generalize roeL x = l at *
    simp [roeDADU, roeDLA, d1, d2, d3, d4, d5, d6, d7] at this
    linear_combination -2 * this
  have k1 := key 1 (by decide)
  have k2 := key 2 (by decide)
  have q1 := hdvn 0
  have q2 := hdvn 1
  change _ = _ at q1 q2
  simp only [show (Fin.castSucc (Fin.succ (0 : Fin 2)) : Fin 4) = 1 from rfl, show (Fin.castSucc (Fin.succ (1 : Fin 2)) : Fin 4) = 2 from rfl] at q1 q2
  rw [q1] at k1
  rw [q2] at k2
  have hq : 0 < (roeOf G a b n).R / (b 0 * ((roeOf G a b n).R + 1)) := by have := hb.rho; positivity
  have hz : (roeOf G a b n).R / (b 0 * ((roeOf G a b n).R + 1)) * (b 0 - a 0) = 0 := by
    linear_combination (n 0) * k1 + n 1 * k2 - ((roeOf G a b n).R / (b 0 * ((roeOf G a b n).R + 1)) * (b 0 - a 0)) * hn
  rcases mul_eq_zero.1 hz with h | h
  · exact hq.ne' h
  · exact hab (by linarith)

/-- Hypotheses of the refutations are met. -/
example : ¬ Mirror (ausmJac air) uC1 uC4 ![1, 0] ∧ ¬ Mirror (hllcJac air) uC1 uC4 ![1, 0] ∧ ¬ Mirror (roeJac air) uC1 uC4 ![1, 0] :=
  have hn : (![1, 0] : V2) 0 * (![1, 0] : V2) 0 + (![1, 0] : V2) 1 * (![1, 0] : V2) 1 = 1 := by norm_num
  have hab : uC1 0 ≠ uC4 0 := by norm_num [uC1, uC4]
  ⟨C83_ausm_refuted adm_uC1 adm_uC4 contact_uC hn hab, C83_hllc_refuted adm_uC1 adm_uC4 contact_uC hn hab,
    C83_roe_refuted adm_uC1 adm_uC4 contact_uC hn hab⟩

end Flux
end FVENS
