import Verif.Flux.Order
import Mathlib.Topology.Order.OrderClosed
import Mathlib.Topology.ContinuousOn
import Mathlib.Analysis.SpecialFunctions.Pow.Continuity

/-!
# Continuity of the numerical fluxes (C113)

Every flux function of src/spatial/anumericalflux.cpp switches between formulas. At admissible states the formulas agree where they meet, so that the flux is a continuous
function of both states.
-/

namespace FVENS
namespace Flux

open Filter Topology

section aux
variable {X : Type} [TopologicalSpace X] {x : X}

/-- Two formulas that agree where they meet. -/
theorem contAt_ite_lt {a b : X → ℝ} {Y : Type} [TopologicalSpace Y] {f h : X → Y} (ha : ContinuousAt a x) (hb : ContinuousAt b x) (hf : ContinuousAt f x) (hh : ContinuousAt h x)
    (e : a x = b x → f x = h x) : ContinuousAt (fun y => if a y < b y then f y else h y) x := by
  rcases lt_trichotomy (a x) (b x) with hlt | heq | hgt
  · refine hf.congr ?_
    filter_upwards [ha.eventually_lt hb hlt] with y hy
    rw [if_pos hy]
  · have e' := e heq
    have hv : (if a x < b x then f x else h x) = h x := if_neg heq.not_lt
    unfold ContinuousAt
    dsimp only
    rw [hv]
    refine Tendsto.if' ?_ hh
    have := hf.tendsto
    rwa [e'] at this
  · refine hh.congr ?_
    filter_upwards [hb.eventually_lt ha hgt] with y hy
    rw [if_neg hy.not_gt]

theorem contAt_ite_le {a b : X → ℝ} {Y : Type} [TopologicalSpace Y] {f h : X → Y} (ha : ContinuousAt a x) (hb : ContinuousAt b x) (hf : ContinuousAt f x) (hh : ContinuousAt h x)
    (e : a x = b x → f x = h x) : ContinuousAt (fun y => if a y ≤ b y then f y else h y) x := by
  have := contAt_ite_lt hb ha hh hf fun e' => (e e'.symm).symm
  refine this.congr (Eventually.of_forall fun y => ?_)
  by_cases h1 : a y ≤ b y
  · simp [h1, h1.not_gt]
  · simp [h1, not_le.1 h1]

theorem contAt_vec4 {f0 f1 f2 f3 : X → ℝ} (h0 : ContinuousAt f0 x) (h1 : ContinuousAt f1 x) (h2 : ContinuousAt f2 x) (h3 : ContinuousAt f3 x) :
    ContinuousAt (fun y => (![f0 y, f1 y, f2 y, f3 y] : St)) x := by
  refine continuousAt_pi.2 fun i => ?_
  fin_cases i
  · exact h0
  · exact h1
  · exact h2
  · exact h3

end aux

section
variable {X : Type} [TopologicalSpace X] {x : X} {G : Gas} {f h : X → St} {n : V2}

theorem c_comp (hf : ContinuousAt f x) (i : Fin 4) : ContinuousAt (fun y => f y i) x := continuousAt_pi.1 hf i

theorem c_vel (hf : ContinuousAt f x) (h0 : f x 0 ≠ 0) (d : Fin 2) : ContinuousAt (fun y => Gas.vel (f y) d) x := by
  fin_cases d
  · exact (c_comp hf 1).div (c_comp hf 0) h0
  · exact (c_comp hf 2).div (c_comp hf 0) h0

theorem c_vn (hf : ContinuousAt f x) (h0 : f x 0 ≠ 0) (n : V2) : ContinuousAt (fun y => Gas.varsVn (f y) n) x :=
  ((c_vel hf h0 0).mul continuousAt_const).add ((c_vel hf h0 1).mul continuousAt_const)

theorem c_v2 (hf : ContinuousAt f x) (h0 : f x 0 ≠ 0) : ContinuousAt (fun y => dot (Gas.vel (f y)) (Gas.vel (f y))) x :=
  ((c_vel hf h0 0).mul (c_vel hf h0 0)).add ((c_vel hf h0 1).mul (c_vel hf h0 1))

theorem c_p (hf : ContinuousAt f x) (h0 : f x 0 ≠ 0) : ContinuousAt (fun y => G.varsP (f y)) x :=
  continuousAt_const.mul ((c_comp hf 3).sub ((continuousAt_const.mul (c_comp hf 0)).mul (c_v2 hf h0)))

theorem c_H (hf : ContinuousAt f x) (h0 : f x 0 ≠ 0) : ContinuousAt (fun y => G.varsH (f y)) x :=
  ((c_comp hf 3).add (c_p hf h0)).div (c_comp hf 0) h0

theorem c_sqrt {a : X → ℝ} (ha : ContinuousAt a x) : ContinuousAt (fun y => Real.sqrt (a y)) x := Real.continuous_sqrt.continuousAt.comp ha

theorem c_c (hf : ContinuousAt f x) (h0 : f x 0 ≠ 0) : ContinuousAt (fun y => cSide G (f y)) x :=
  c_sqrt ((continuousAt_const.mul (c_p hf h0)).div (c_comp hf 0) h0)

theorem c_dir {vn p : X → ℝ} (hf : ContinuousAt f x) (hv : ContinuousAt vn x) (hp : ContinuousAt p x) : ContinuousAt (fun y => Gas.dirFlux (f y) n (vn y) (p y)) x := by
  have h0 := c_comp hf 0
  have h1 := c_comp hf 1
  have h2 := c_comp hf 2
  have h3 := c_comp hf 3
  exact contAt_vec4 (by fun_prop) (by fun_prop) (by fun_prop) (by fun_prop)

theorem c_euler (hf : ContinuousAt f x) (h0 : f x 0 ≠ 0) (n : V2) : ContinuousAt (fun y => G.eulerFlux (f y) n) x := by
  have : ContinuousAt (fun y => Gas.dirFlux (f y) n (Gas.varsVn (f y) n) (G.varsP (f y))) x := c_dir hf (c_vn hf h0 n) (c_p hf h0)
  refine this.congr ?_
  filter_upwards [(c_comp hf 0).eventually_ne h0] with y hy
  exact (eulerFlux_eq hy n).symm

theorem c_llf (hf : ContinuousAt f x) (hh : ContinuousAt h x) (h0 : f x 0 ≠ 0) (h1 : h x 0 ≠ 0) (n : V2) : ContinuousAt (fun y => llf G (f y) (h y) n) x := by
  have a1 := c_vn hf h0 n
  have a2 := c_vn hh h1 n
  have b1 := c_c (G := G) hf h0
  have b2 := c_c (G := G) hh h1
  have e : ContinuousAt (fun y => llfEig (Gas.varsVn (f y) n) (cSide G (f y)) (Gas.varsVn (h y) n) (cSide G (h y))) x :=
    contAt_ite_lt (a2.abs.add b2) (a1.abs.add b1) (a1.abs.add b1) (a2.abs.add b2) fun e => e.symm
  refine continuousAt_pi.2 fun i => ?_
  exact continuousAt_const.mul (((c_comp (c_euler hf h0 n) i).add (c_comp (c_euler hh h1 n) i)).sub (e.mul ((c_comp hh i).sub (c_comp hf i))))

/-! ### Splittings -/

theorem cont_two (f0 f1 f2 : ℝ → ℝ) (h0 : Continuous f0) (h1 : Continuous f1) (h2 : Continuous f2) (e1 : f0 (-1) = f1 (-1)) (e2 : f1 1 = f2 1) :
    Continuous fun M : ℝ => if |M| ≤ 1 then f1 M else if M < -1 then f0 M else f2 M := by
  have : (fun M : ℝ => if |M| ≤ 1 then f1 M else if M < -1 then f0 M else f2 M) = fun M => if M ≤ -1 then f0 M else if M ≤ 1 then f1 M else f2 M := by
    funext M
    by_cases a : |M| ≤ 1
    · rw [if_pos a]
      obtain ⟨a1, a2⟩ := abs_le.1 a
      by_cases b : M ≤ -1
      · rw [if_pos b, le_antisymm b a1, e1]
      · rw [if_neg b, if_pos a2]
    · rw [if_neg a]
      by_cases b : M < -1
      · rw [if_pos b, if_pos b.le]
      · rw [if_neg b]
        have hM : 1 < M := by
          by_contra hc
          exact a (abs_le.2 ⟨not_lt.1 b, not_lt.1 hc⟩)
        rw [if_neg (by linarith), if_neg (by linarith)]
  rw [this]
  refine Continuous.if_le h0 (Continuous.if_le h1 h2 continuous_id continuous_const fun M hM => ?_) continuous_id continuous_const fun M hM => ?_
  · rw [show M = 1 from hM]; exact e2
  · rw [show M = -1 from hM, if_pos (by norm_num)]; exact e1

theorem cont_ML : Continuous ausmML := cont_two (fun _ => 0) (fun M => 1 / 4 * (M + 1) * (M + 1)) (fun M => M) (by fun_prop) (by fun_prop) (by fun_prop) (by norm_num) (by norm_num)
theorem cont_MR : Continuous ausmMR := cont_two (fun M => M) (fun M => -(1 / 4) * (M - 1) * (M - 1)) (fun _ => 0) (by fun_prop) (by fun_prop) (by fun_prop) (by norm_num) (by norm_num)
theorem cont_PL : Continuous fun M => ausmPL M 1 := cont_two (fun _ => 0) (fun M => 1 / 4 * (M + 1) * (M + 1) * 1 * (2 - M)) (fun _ => 1) (by fun_prop) (by fun_prop) (by fun_prop)
  (by norm_num) (by norm_num)
theorem cont_PR : Continuous fun M => ausmPR M 1 := cont_two (fun _ => 1) (fun M => -(-(1 / 4) * (M - 1) * (M - 1)) * 1 * (2 + M)) (fun _ => 0) (by fun_prop) (by fun_prop)
  (by fun_prop) (by norm_num) (by norm_num)
theorem cont_pML : Continuous ausmpML := cont_two (fun _ => 0) (fun M => 1 / 4 * (M + 1) * (M + 1) + 1 / 8 * (M * M - 1) * (M * M - 1)) (fun M => M) (by fun_prop) (by fun_prop)
  (by fun_prop) (by norm_num) (by norm_num)
theorem cont_pMR : Continuous ausmpMR := cont_two (fun M => M) (fun M => -(1 / 4) * (M - 1) * (M - 1) - 1 / 8 * (M * M - 1) * (M * M - 1)) (fun _ => 0) (by fun_prop) (by fun_prop)
  (by fun_prop) (by norm_num) (by norm_num)
theorem cont_pPL : Continuous fun M => ausmpPL M 1 := cont_two (fun _ => 0) (fun M => 1 * (1 / 4 * (M + 1) * (M + 1) * (2 - M) + 3 / 16 * M * (M * M - 1) * (M * M - 1))) (fun _ => 1)
  (by fun_prop) (by fun_prop) (by fun_prop) (by norm_num) (by norm_num)
theorem cont_pPR : Continuous fun M => ausmpPR M 1 := cont_two (fun _ => 1) (fun M => 1 * (1 / 4 * (M - 1) * (M - 1) * (2 + M) - 3 / 16 * M * (M * M - 1) * (M * M - 1))) (fun _ => 0)
  (by fun_prop) (by fun_prop) (by fun_prop) (by norm_num) (by norm_num)

theorem PL_mul (M p : ℝ) : ausmPL M p = ausmPL M 1 * p := by unfold ausmPL; split_ifs <;> ring
theorem PR_mul (M p : ℝ) : ausmPR M p = ausmPR M 1 * p := by unfold ausmPR; split_ifs <;> ring
theorem pPL_mul (M p : ℝ) : ausmpPL M p = ausmpPL M 1 * p := by unfold ausmpPL; split_ifs <;> ring
theorem pPR_mul (M p : ℝ) : ausmpPR M p = ausmpPR M 1 * p := by unfold ausmpPR; split_ifs <;> ring

theorem c_ausm (hf : ContinuousAt f x) (hh : ContinuousAt h x) (al : Adm G (f x)) (ar : Adm G (h x)) (n : V2) : ContinuousAt (fun y => ausm G (f y) (h y) n) x := by
  have p1 := c_p (G := G) hf al.rho'
  have p2 := c_p (G := G) hh ar.rho'
  have b1 := c_c (G := G) hf al.rho'
  have b2 := c_c (G := G) hh ar.rho'
  have m1 : ContinuousAt (fun y => Gas.varsVn (f y) n / cSide G (f y)) x := (c_vn hf al.rho' n).div b1 al.c_pos.ne'
  have m2 : ContinuousAt (fun y => Gas.varsVn (h y) n / cSide G (h y)) x := (c_vn hh ar.rho' n).div b2 ar.c_pos.ne'
  have q1 : ContinuousAt (fun y => ausmML (Gas.varsVn (f y) n / cSide G (f y)) + ausmMR (Gas.varsVn (h y) n / cSide G (h y))) x :=
    (cont_ML.continuousAt.comp m1).add (cont_MR.continuousAt.comp m2)
  have q2 : ContinuousAt (fun y => ausmPL (Gas.varsVn (f y) n / cSide G (f y)) (G.varsP (f y)) + ausmPR (Gas.varsVn (h y) n / cSide G (h y)) (G.varsP (h y))) x := by
    simp_rw [PL_mul _ (G.varsP _), PR_mul _ (G.varsP _)]
    exact ((cont_PL.continuousAt.comp m1).mul p1).add ((cont_PR.continuousAt.comp m2).mul p2)
  have q3 := q1.abs
  have f0 := c_comp hf 0
  have f1 := c_comp hf 1
  have f2 := c_comp hf 2
  have f3 := c_comp hf 3
  have h0 := c_comp hh 0
  have h1 := c_comp hh 1
  have h2 := c_comp hh 2
  have h3 := c_comp hh 3
  exact contAt_vec4 (((q1.div_const 2).mul ((f0.mul b1).add (h0.mul b2))).sub ((q3.div_const 2).mul ((h0.mul b2).sub (f0.mul b1))))
    ((((q1.div_const 2).mul ((f1.mul b1).add (h1.mul b2))).sub ((q3.div_const 2).mul ((h1.mul b2).sub (f1.mul b1)))).add (q2.mul continuousAt_const))
    ((((q1.div_const 2).mul ((f2.mul b1).add (h2.mul b2))).sub ((q3.div_const 2).mul ((h2.mul b2).sub (f2.mul b1)))).add (q2.mul continuousAt_const))
    (((q1.div_const 2).mul ((b1.mul (f3.add p1)).add (b2.mul (h3.add p2)))).sub ((q3.div_const 2).mul ((b2.mul (h3.add p2)).sub (b1.mul (f3.add p1)))))

/-! ### Van Leer -/

theorem c_vlPlus (hf : ContinuousAt f x) (a : Adm G (f x)) (n : V2) :
    ContinuousAt (fun y => vlPlus G.g (f y) n (Gas.varsVn (f y) n) (G.varsP (f y)) (cSide G (f y))) x := by
  have v := c_vn hf a.rho' n
  have c := c_c (G := G) hf a.rho'
  have m : ContinuousAt (fun y => Gas.varsVn (f y) n / cSide G (f y)) x := v.div c a.c_pos.ne'
  have d := c_dir (n := n) hf v (c_p (G := G) hf a.rho')
  have v1 : ContinuousAt (fun y => f y 1 / f y 0) x := (c_comp hf 1).div (c_comp hf 0) a.rho'
  have v2 : ContinuousAt (fun y => f y 2 / f y 0) x := (c_comp hf 2).div (c_comp hf 0) a.rho'
  have f0 := c_comp hf 0
  have hg := a.g1
  have hc := a.c_pos
  have hr := a.rho'
  have hcs := a.c_sq
  unfold vlPlus
  refine contAt_ite_lt m continuousAt_const continuousAt_const (contAt_ite_lt continuousAt_const m d ?_ ?_) ?_
  · exact contAt_vec4 (by fun_prop) (by fun_prop) (by fun_prop) (by fun_prop)
  · intro e
    have ev : Gas.varsVn (f x) n = cSide G (f x) := by
      have := (div_eq_iff hc.ne').1 e.symm; linarith
    have ep : G.varsP (f x) = cSide G (f x) * cSide G (f x) * f x 0 / G.g := by rw [hcs]; field_simp
    have e3 := energy_eq a
    have hg0 : G.g ≠ 0 := by linarith
    have hg1 : G.g - 1 ≠ 0 := by linarith
    have hg2 : G.g + 1 ≠ 0 := by linarith
    have e1 := mom1_eq (u := f x) hr
    have e2 := mom2_eq (u := f x) hr
    have hv0 : f x 1 / f x 0 = Gas.vel (f x) 0 := by simp [Gas.vel]
    have hv1 : f x 2 / f x 0 = Gas.vel (f x) 1 := by simp [Gas.vel]
    have eg : G.g * G.g - 1 = (G.g - 1) * (G.g + 1) := by ring
    funext i
    simp only [ev, div_self hc.ne', hv0, hv1, eg]
    fin_cases i
    · simp [Gas.dirFlux]; ring
    · simp only [Gas.dirFlux, e1, ep]; simp; field_simp; ring
    · simp only [Gas.dirFlux, e2, ep]; simp; field_simp; ring
    · simp only [Gas.dirFlux, e3, ep]; simp; field_simp; ring
  · intro e
    rw [if_neg (by rw [e]; norm_num)]
    rw [e]
    funext i
    fin_cases i <;> simp

theorem c_vanLeer (hf : ContinuousAt f x) (hh : ContinuousAt h x) (al : Adm G (f x)) (ar : Adm G (h x)) (n : V2) : ContinuousAt (fun y => vanLeer G (f y) (h y) n) x := by
  have h1 := c_vlPlus hf al n
  have h2 := c_vlPlus hh ar (-n)
  refine continuousAt_pi.2 fun i => ?_
  have h3 := (c_comp h1 i).sub (c_comp h2 i)
  refine h3.congr (Eventually.of_forall fun y => ?_)
  show vlPlus G.g (f y) n (Gas.varsVn (f y) n) (G.varsP (f y)) (cSide G (f y)) i - vlPlus G.g (h y) (-n) (Gas.varsVn (h y) (-n)) (G.varsP (h y)) (cSide G (h y)) i = _
  rw [varsVn_neg, vlPlus_neg]
  simp only [vanLeer]
  ring

/-! ### AUSM+ -/

theorem critC_pos {u : St} (a : Adm G u) : 0 < critC G.g (cSide G u) (dot (Gas.vel u) (Gas.vel u)) := by
  unfold critC
  have h1 := a.g1
  have h2 := a.c_pos
  have h3 : 0 ≤ dot (Gas.vel u) (Gas.vel u) := by unfold dot; nlinarith [mul_self_nonneg (Gas.vel u 0), mul_self_nonneg (Gas.vel u 1)]
  have h4 : 0 < G.g - 1 := by linarith
  have h5 : 0 < G.g + 1 := by linarith
  positivity

theorem c_crit (hf : ContinuousAt f x) (a : Adm G (f x)) : ContinuousAt (fun y => critC G.g (cSide G (f y)) (dot (Gas.vel (f y)) (Gas.vel (f y)))) x := by
  have b := c_c (G := G) hf a.rho'
  exact c_sqrt ((((((b.mul b).div_const _).add (continuousAt_const.mul (c_v2 hf a.rho'))).mul continuousAt_const).mul continuousAt_const).div_const _)

/-- The larger of a positive and another number. -/
theorem corr_pos {a b : ℝ} (ha : 0 < a) : (if a > b then a else b) ≠ 0 := by
  split_ifs with h
  · exact ha.ne'
  · exact (lt_of_lt_of_le ha (not_lt.1 h)).ne'

theorem c_ausmpC (hf : ContinuousAt f x) (hh : ContinuousAt h x) (al : Adm G (f x)) (ar : Adm G (h x)) (n : V2) : ContinuousAt (fun y => ausmpCOf G (f y) (h y) n) x := by
  have c1 := c_crit hf al
  have c2 := c_crit hh ar
  have v1 := c_vn hf al.rho' n
  have v2 := (c_vn hh ar.rho' n).neg
  have k1 := contAt_ite_lt v1 c1 c1 v1 fun e => e.symm
  have k2 := contAt_ite_lt v2 c2 c2 v2 fun e => e.symm
  have d1 := (c1.mul c1).div k1 (corr_pos (critC_pos al))
  have d2 := (c2.mul c2).div k2 (corr_pos (critC_pos ar))
  exact contAt_ite_lt d1 d2 d1 d2 id

theorem c_ausmPlus (hf : ContinuousAt f x) (hh : ContinuousAt h x) (al : Adm G (f x)) (ar : Adm G (h x)) (n : V2) : ContinuousAt (fun y => ausmPlus G (f y) (h y) n) x := by
  have p1 := c_p (G := G) hf al.rho'
  have p2 := c_p (G := G) hh ar.rho'
  have b := c_ausmpC hf hh al ar n
  have m1 := (c_vn hf al.rho' n).div b (ausmpC_pos al ar).ne'
  have m2 := (c_vn hh ar.rho' n).div b (ausmpC_pos al ar).ne'
  have q1 : ContinuousAt (fun y => ausmpML (Gas.varsVn (f y) n / ausmpCOf G (f y) (h y) n) + ausmpMR (Gas.varsVn (h y) n / ausmpCOf G (f y) (h y) n)) x :=
    (cont_pML.continuousAt.comp m1).add (cont_pMR.continuousAt.comp m2)
  have q2 : ContinuousAt (fun y => ausmpPL (Gas.varsVn (f y) n / ausmpCOf G (f y) (h y) n) (G.varsP (f y)) +
      ausmpPR (Gas.varsVn (h y) n / ausmpCOf G (f y) (h y) n) (G.varsP (h y))) x := by
    simp_rw [pPL_mul _ (G.varsP _), pPR_mul _ (G.varsP _)]
    exact ((cont_pPL.continuousAt.comp m1).mul p1).add ((cont_pPR.continuousAt.comp m2).mul p2)
  have q3 := q1.abs
  have f0 := c_comp hf 0
  have f1 := c_comp hf 1
  have f2 := c_comp hf 2
  have f3 := c_comp hf 3
  have h0 := c_comp hh 0
  have h1 := c_comp hh 1
  have h2 := c_comp hh 2
  have h3 := c_comp hh 3
  exact contAt_vec4 (b.mul (((q1.div_const 2).mul (f0.add h0)).sub ((q3.div_const 2).mul (h0.sub f0))))
    ((b.mul (((q1.div_const 2).mul (f1.add h1)).sub ((q3.div_const 2).mul (h1.sub f1)))).add (q2.mul continuousAt_const))
    ((b.mul (((q1.div_const 2).mul (f2.add h2)).sub ((q3.div_const 2).mul (h2.sub f2)))).add (q2.mul continuousAt_const))
    (b.mul (((q1.div_const 2).mul (((f3.add p1).add h3).add p2)).sub ((q3.div_const 2).mul ((h3.add p2).sub (f3.add p1)))))

/-! ### Roe averages -/

section roe
variable (hf : ContinuousAt f x) (hh : ContinuousAt h x) (al : Adm G (f x)) (ar : Adm G (h x)) (n : V2)
include hf hh al ar

omit ar in
theorem c_R : ContinuousAt (fun y => (roeOf G (f y) (h y) n).R) x := c_sqrt ((c_comp hh 0).div (c_comp hf 0) al.rho')

omit [TopologicalSpace X] hf hh in
theorem R1_ne : (roeOf G (f x) (h x) n).R + 1 ≠ 0 := by
  have := roe_R_pos (G := G) (n := n) al.rho ar.rho
  positivity

theorem c_roeV (d : Fin 2) : ContinuousAt (fun y => (roeOf G (f y) (h y) n).v d) x := by
  have r := c_R hf hh al n
  have e := R1_ne al ar n
  fin_cases d
  · exact ((r.mul (c_vel hh ar.rho' 0)).add (c_vel hf al.rho' 0)).div (r.add continuousAt_const) e
  · exact ((r.mul (c_vel hh ar.rho' 1)).add (c_vel hf al.rho' 1)).div (r.add continuousAt_const) e

theorem c_roeH : ContinuousAt (fun y => (roeOf G (f y) (h y) n).H) x := by
  have r := c_R hf hh al n
  exact ((r.mul (c_H hh ar.rho')).add (c_H hf al.rho')).div (r.add continuousAt_const) (R1_ne al ar n)

omit ar in
theorem c_roeRho : ContinuousAt (fun y => (roeOf G (f y) (h y) n).rho) x := (c_R hf hh al n).mul (c_comp hf 0)

theorem c_roeVm2 : ContinuousAt (fun y => (roeOf G (f y) (h y) n).vm2) x := by
  have a := c_roeV hf hh al ar n 0
  have b := c_roeV hf hh al ar n 1
  exact (a.mul a).add (b.mul b)

theorem c_roeVn : ContinuousAt (fun y => (roeOf G (f y) (h y) n).vn) x :=
  ((c_roeV hf hh al ar n 0).mul continuousAt_const).add ((c_roeV hf hh al ar n 1).mul continuousAt_const)

theorem c_roeC : ContinuousAt (fun y => (roeOf G (f y) (h y) n).c) x :=
  c_sqrt (continuousAt_const.mul ((c_roeH hf hh al ar n).sub ((c_roeVm2 hf hh al ar n).mul continuousAt_const)))

theorem c_sl : ContinuousAt (fun y => slOf G (f y) (h y) n) x := by
  have a := (c_roeVn hf hh al ar n).sub (c_roeC hf hh al ar n)
  have b := (c_vn hf al.rho' n).sub (c_c (G := G) hf al.rho')
  exact contAt_ite_lt a b a b id

theorem c_sr : ContinuousAt (fun y => srOf G (f y) (h y) n) x := by
  have a := (c_roeVn hf hh al ar n).add (c_roeC hf hh al ar n)
  have b := (c_vn hh ar.rho' n).add (c_c (G := G) hh ar.rho')
  exact contAt_ite_lt b a a b Eq.symm

/-! ### Roe -/

omit hf hh al ar in
theorem c_harten {del l : X → ℝ} (hd : ContinuousAt del x) (hl : ContinuousAt l x) (hp : 0 < del x) : ContinuousAt (fun y => harten (del y) (l y)) x := by
  refine contAt_ite_lt hl hd (((hl.mul hl).add (hd.mul hd)).div (continuousAt_const.mul hd) (by positivity)) hl fun e => ?_
  simp only [e]
  field_simp
  ring

theorem c_roeL (k : Fin 4) : ContinuousAt (fun y => roeL (roeOf G (f y) (h y) n) k) x := by
  have a := c_roeVn hf hh al ar n
  have b := c_roeC hf hh al ar n
  have hc : 0 < fixeps * (roeOf G (f x) (h x) n).c := mul_pos (by norm_num [fixeps]) (roe_c_pos al ar)
  refine c_harten (continuousAt_const.mul b) ?_ hc
  fin_cases k
  · exact (a.sub b).abs
  · exact a.abs
  · exact a.abs
  · exact (a.add b).abs

theorem c_roe : ContinuousAt (fun y => roe G (f y) (h y) n) x := by
  have vi := c_vn hf al.rho' n
  have vj := c_vn hh ar.rho' n
  have pi := c_p (G := G) hf al.rho'
  have pj := c_p (G := G) hh ar.rho'
  have rho := c_roeRho hf hh al n
  have c := c_roeC hf hh al ar n
  have v0 := c_roeV hf hh al ar n 0
  have v1 := c_roeV hf hh al ar n 1
  have vm := c_roeVm2 hf hh al ar n
  have vn := c_roeVn hf hh al ar n
  have H := c_roeH hf hh al ar n
  have dv0 := (c_vel hh ar.rho' 0).sub (c_vel hf al.rho' 0)
  have dv1 := (c_vel hh ar.rho' 1).sub (c_vel hf al.rho' 1)
  have l0 := c_roeL hf hh al ar n 0
  have l1 := c_roeL hf hh al ar n 1
  have l3 := c_roeL hf hh al ar n 3
  have dp := pj.sub pi
  have dvn := vj.sub vi
  have dr := (c_comp hh 0).sub (c_comp hf 0)
  have hc : (roeOf G (f x) (h x) n).c ≠ 0 := (roe_c_pos al ar).ne'
  have hc2 : 2 * (roeOf G (f x) (h x) n).c * (roeOf G (f x) (h x) n).c ≠ 0 := mul_ne_zero (mul_ne_zero two_ne_zero hc) hc
  have a0 := (l0.mul (dp.sub ((rho.mul c).mul dvn))).div ((continuousAt_const (y := (2 : ℝ))).mul c |>.mul c) hc2
  have a1 := l1.mul (dr.sub (dp.div (c.mul c) (mul_ne_zero hc hc)))
  have a2 := l1.mul rho
  have a3 := (l3.mul (dp.add ((rho.mul c).mul dvn))).div ((continuousAt_const (y := (2 : ℝ))).mul c |>.mul c) hc2
  have k0 := continuousAt_const (x := x) (y := n 0)
  have k1 := continuousAt_const (x := x) (y := n 1)
  have D := contAt_vec4 ((a0.add a1).add a3)
    (((a0.mul (v0.sub (c.mul k0))).add ((a1.mul v0).add (a2.mul (dv0.sub (dvn.mul k0))))).add (a3.mul (v0.add (c.mul k0))))
    (((a0.mul (v1.sub (c.mul k1))).add ((a1.mul v1).add (a2.mul (dv1.sub (dvn.mul k1))))).add (a3.mul (v1.add (c.mul k1))))
    (((a0.mul (H.sub (c.mul vn))).add (((a1.mul vm).div_const 2).add (a2.mul (((v0.mul dv0).add (v1.mul dv1)).sub (vn.mul dvn))))).add (a3.mul (H.add (c.mul vn))))
  refine continuousAt_pi.2 fun i => ?_
  exact continuousAt_const.mul (((c_comp (c_dir (n := n) hf vi pi) i).add (c_comp (c_dir (n := n) hh vj pj) i)).sub (c_comp D i))

/-! ### HLL -/

theorem c_hll : ContinuousAt (fun y => hll G (f y) (h y) n) x := by
  have vi := c_vn hf al.rho' n
  have vj := c_vn hh ar.rho' n
  have pi := c_p (G := G) hf al.rho'
  have pj := c_p (G := G) hh ar.rho'
  have Hi := c_H (G := G) hf al.rho'
  have Hj := c_H (G := G) hh ar.rho'
  have sl := c_sl hf hh al ar n
  have sr := c_sr hf hh al ar n
  have hd : srOf G (f x) (h x) n - slOf G (f x) (h x) n ≠ 0 := by have := sl_lt_sr (n := n) al ar; linarith
  have cl := contAt_ite_lt (continuousAt_const (y := (0 : ℝ))) sl (continuousAt_const (y := (0 : ℝ))) sl id
  have cr := contAt_ite_lt (continuousAt_const (y := (0 : ℝ))) sr (continuousAt_const (y := (0 : ℝ))) sr id
  have t1 := (cr.sub cl).div (sr.sub sl) hd
  have t2 := (continuousAt_const (y := (1 : ℝ))).sub t1
  have t3 := ((continuousAt_const (y := (1 / 2 : ℝ))).mul ((sr.mul sl.abs).sub (sl.mul sr.abs))).div (sr.sub sl) hd
  have f0 := c_comp hf 0
  have f1 := c_comp hf 1
  have f2 := c_comp hf 2
  have f3 := c_comp hf 3
  have h0 := c_comp hh 0
  have h1 := c_comp hh 1
  have h2 := c_comp hh 2
  have h3 := c_comp hh 3
  have k0 := continuousAt_const (x := x) (y := n 0)
  have k1 := continuousAt_const (x := x) (y := n 1)
  exact contAt_vec4 ((((t1.mul vj).mul h0).add ((t2.mul vi).mul f0)).sub (t3.mul (h0.sub f0)))
    (((t1.mul ((vj.mul h1).add (pj.mul k0))).add (t2.mul ((vi.mul f1).add (pi.mul k0)))).sub (t3.mul (h1.sub f1)))
    (((t1.mul ((vj.mul h2).add (pj.mul k1))).add (t2.mul ((vi.mul f2).add (pi.mul k1)))).sub (t3.mul (h2.sub f2)))
    (((t1.mul ((vj.mul h0).mul Hj)).add (t2.mul ((vi.mul f0).mul Hi))).sub (t3.mul (h3.sub f3)))

/-! ### HLLC -/

theorem c_sm : ContinuousAt (fun y => smOf G (f y) (h y) n) x := by
  have vi := c_vn hf al.rho' n
  have vj := c_vn hh ar.rho' n
  have pi := c_p (G := G) hf al.rho'
  have pj := c_p (G := G) hh ar.rho'
  have sl := c_sl hf hh al ar n
  have sr := c_sr hf hh al ar n
  have f0 := c_comp hf 0
  have h0 := c_comp hh 0
  exact (((((h0.mul vj).mul (sr.sub vj)).sub ((f0.mul vi).mul (sl.sub vi))).add pi).sub pj).div ((h0.mul (sr.sub vj)).sub (f0.mul (sl.sub vi))) (den_pos al ar).ne'

omit hh al ar in
theorem c_star {vn p ss sm : X → ℝ} (hv : ContinuousAt vn x) (hp : ContinuousAt p x) (hs : ContinuousAt ss x) (hm : ContinuousAt sm x) (hne : ss x - sm x ≠ 0) :
    ContinuousAt (fun y => star (f y) n (vn y) (p y) (ss y) (sm y)) x := by
  have f0 := c_comp hf 0
  have f1 := c_comp hf 1
  have f2 := c_comp hf 2
  have f3 := c_comp hf 3
  have ps := ((f0.mul (hv.sub hs)).mul (hv.sub hm)).add hp
  have k0 := continuousAt_const (x := x) (y := n 0)
  have k1 := continuousAt_const (x := x) (y := n 1)
  have d := hs.sub hm
  exact contAt_vec4 ((f0.mul (hs.sub hv)).div d hne) ((((hs.sub hv).mul f1).add ((ps.sub hp).mul k0)).div d hne)
    ((((hs.sub hv).mul f2).add ((ps.sub hp).mul k1)).div d hne) (((((hs.sub hv).mul f3).sub (hp.mul hv)).add (ps.mul hm)).div d hne)

omit hf hh al ar in
theorem hllcCore_eq (ul ur : St) (n : V2) (vni vnj pi pj sl sm sr : ℝ) : hllcCore ul ur n vni vnj pi pj sl sm sr =
    if 0 < sl then Gas.dirFlux ul n vni pi
    else if 0 < sm then fun i => Gas.dirFlux ul n vni pi i + sl * (star ul n vni pi sl sm i - ul i)
    else if 0 ≤ sr then fun i => Gas.dirFlux ur n vnj pj i + sr * (star ur n vnj pj sr sm i - ur i)
    else Gas.dirFlux ur n vnj pj := by
  unfold hllcCore
  by_cases a : 0 < sl
  · simp [a]
  · by_cases b : 0 < sm
    · simp [a, b, not_lt.1 a]
    · simp [a, b, not_lt.1 b]

omit hf hh al ar in
/-- With a contact at rest in the face the flux is the pressure behind it. -/
theorem star_still {u : St} {n : V2} {vn p ss : ℝ} (hs : ss ≠ 0) :
    (fun i => Gas.dirFlux u n vn p i + ss * (star u n vn p ss 0 i - u i)) =
      ![0, (u 0 * (vn - ss) * (vn - 0) + p) * n 0, (u 0 * (vn - ss) * (vn - 0) + p) * n 1, 0] := by
  funext i
  fin_cases i <;> simp [Gas.dirFlux, star] <;> field_simp <;> ring

theorem c_hllc (hg : 4 ≤ 3 * G.g) : ContinuousAt (fun y => hllc G (f y) (h y) n) x := by
  have vi := c_vn hf al.rho' n
  have vj := c_vn hh ar.rho' n
  have pi := c_p (G := G) hf al.rho'
  have pj := c_p (G := G) hh ar.rho'
  have sl := c_sl hf hh al ar n
  have sr := c_sr hf hh al ar n
  have sm := c_sm hf hh al ar n
  have o1 := sl_lt_sm (n := n) hg al ar
  have o2 := sm_lt_sr (n := n) hg al ar
  have z := continuousAt_const (x := x) (y := (0 : ℝ))
  have dl := c_dir (n := n) hf vi pi
  have dr := c_dir (n := n) hh vj pj
  have sL := c_star (n := n) hf vi pi sl sm (by linarith)
  have sR := c_star (n := n) hh vj pj sr sm (by linarith)
  have L : ContinuousAt (fun y => fun i => Gas.dirFlux (f y) n (Gas.varsVn (f y) n) (G.varsP (f y)) i + slOf G (f y) (h y) n *
      (star (f y) n (Gas.varsVn (f y) n) (G.varsP (f y)) (slOf G (f y) (h y) n) (smOf G (f y) (h y) n) i - f y i)) x :=
    continuousAt_pi.2 fun i => (c_comp dl i).add (sl.mul ((c_comp sL i).sub (c_comp hf i)))
  have R : ContinuousAt (fun y => fun i => Gas.dirFlux (h y) n (Gas.varsVn (h y) n) (G.varsP (h y)) i + srOf G (f y) (h y) n *
      (star (h y) n (Gas.varsVn (h y) n) (G.varsP (h y)) (srOf G (f y) (h y) n) (smOf G (f y) (h y) n) i - h y i)) x :=
    continuousAt_pi.2 fun i => (c_comp dr i).add (sr.mul ((c_comp sR i).sub (c_comp hh i)))
  unfold hllc
  simp_rw [hllcCore_eq]
  refine contAt_ite_lt z sl dl (contAt_ite_lt z sm L (contAt_ite_le z sr R dr ?_) ?_) ?_
  · intro e
    funext i
    rw [← e]; ring
  · intro e
    rw [if_pos (by linarith)]
    have hps := C21_star_pressure al ar n
    rw [← e] at hps ⊢
    rw [star_still (by linarith), star_still (by linarith)]
    rw [hps]
  · intro e
    rw [if_pos (by linarith)]
    funext i
    rw [← e]; ring

end roe

end

/-- C113: at any two admissible states every numerical flux is a continuous function of both states: no jump at Mach one, where a wave speed or the contact speed passes zero, at the limits of
Harten's correction, or where another state takes over in the choice of a wave or sound speed. (For HLLC γ must be at least 4/3, as in C21.) -/
theorem C113_flux (sch : Scheme) {G : Gas} {ul ur : St} (hl : Adm G ul) (hr : Adm G ur) (hg : sch = .hllc → 4 ≤ 3 * G.g) (n : V2) :
    ContinuousAt (fun q : St × St => sch.flux G q.1 q.2 n) (ul, ur) := by
  have h1 : ContinuousAt (fun q : St × St => q.1) (ul, ur) := continuousAt_fst
  have h2 : ContinuousAt (fun q : St × St => q.2) (ul, ur) := continuousAt_snd
  cases sch with
  | llf => exact c_llf h1 h2 hl.rho' hr.rho' n
  | vanLeer => exact c_vanLeer h1 h2 hl hr n
  | ausm => exact c_ausm h1 h2 hl hr n
  | ausmPlus => exact c_ausmPlus h1 h2 hl hr n
  | roe => exact c_roe h1 h2 hl hr n
  | hll => exact c_hll h1 h2 hl hr n
  | hllc => exact c_hllc h1 h2 hl hr n (hg rfl)

/-- Two states of a shear layer at rest relative to the face, of density 1 and 4 and pressure 1: the contact speed of HLLC is zero, where the formulas of both sides meet. -/
example : smOf air ![1, 0, 1, 3] ![4, 0, -2, 3] ![1, 0] = 0 ∧ ContinuousAt (fun q : St × St => Scheme.hllc.flux air q.1 q.2 ![1, 0]) (![1, 0, 1, 3], ![4, 0, -2, 3]) := by
  have a1 : Adm air ![1, 0, 1, 3] := ⟨by norm_num [air], by norm_num, by simp [Gas.pressure, Gas.pressureOfInternal, air, dot, mom]; norm_num⟩
  have a2 : Adm air ![4, 0, -2, 3] := ⟨by norm_num [air], by norm_num, by simp [Gas.pressure, Gas.pressureOfInternal, air, dot, mom]; norm_num⟩
  refine ⟨?_, C113_flux .hllc a1 a2 (fun _ => by norm_num [air]) _⟩
  have v1 : Gas.varsVn ![1, 0, 1, 3] ![1, 0] = 0 := by simp [Gas.varsVn, Gas.vel, dot]
  have v2 : Gas.varsVn ![4, 0, -2, 3] ![1, 0] = 0 := by simp [Gas.varsVn, Gas.vel, dot]
  have hp : air.varsP ![1, 0, 1, 3] = air.varsP ![4, 0, -2, 3] := by simp [Gas.varsP, Gas.vel, dot, air]; norm_num
  unfold smOf contact
  rw [v1, v2, hp]
  simp

/-- Air at Mach one across the face, where the splittings of van Leer and AUSM change formula. -/
example : Gas.varsVn ![7, 7, 0, 16] ![1, 0] / cSide air ![7, 7, 0, 16] = 1 ∧ ContinuousAt (fun q : St × St => Scheme.vanLeer.flux air q.1 q.2 ![1, 0]) (![7, 7, 0, 16], uB) := by
  have a1 : Adm air ![7, 7, 0, 16] := ⟨by norm_num [air], by norm_num, by simp [Gas.pressure, Gas.pressureOfInternal, air, dot, mom]; norm_num⟩
  refine ⟨?_, C113_flux .vanLeer a1 adm_uB (by simp) _⟩
  have hp : air.varsP ![7, 7, 0, 16] = 5 := by simp [Gas.varsP, Gas.vel, dot, air]; norm_num
  have hc : cSide air ![7, 7, 0, 16] = 1 := by
    show Real.sqrt _ = 1
    rw [hp]; norm_num [air]
  rw [hc]
  simp [Gas.varsVn, Gas.vel, dot]

end Flux
end FVENS
