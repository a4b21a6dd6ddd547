import Verif.FV.CopyJac
import Mathlib.Analysis.Calculus.FDeriv.Prod

/-!
# Joint derivatives of the flux schemes and the blocks at boundaries (C18, C50)

At a physical boundary both arguments of the numerical flux depend on the inner state, so the chain rule used by `compute_local_jacobian_boundary`
(src/spatial/flow_spatial.cpp:841-875) needs the flux to be differentiable in both states together. At walls the schemes are evaluated exactly at their switches
(interface Mach number, contact speed and averaged normal velocity vanish); what holds there is shown separately.
-/

namespace FVENS
namespace FV

open Msh Finset Flux

namespace Disc

variable {G : Gas} {ul ur : St} {n : V2}

theorem diff_fst {f : St → ℝ} {g : St} (h : HasGrad f g ul) : DifferentiableAt ℝ (fun p : St × St => f p.1) (ul, ur) :=
  DifferentiableAt.comp (ul, ur) (f := Prod.fst) (g := f) (HasFDerivAt.differentiableAt h) differentiableAt_fst

theorem diff_snd {f : St → ℝ} {g : St} (h : HasGrad f g ur) : DifferentiableAt ℝ (fun p : St × St => f p.2) (ul, ur) :=
  DifferentiableAt.comp (ul, ur) (f := Prod.snd) (g := f) (HasFDerivAt.differentiableAt h) differentiableAt_snd

/-- A jointly differentiable function has the joint derivative given by its partial derivatives. -/
theorem isJoint_of_diff {F : St → St → St} {J : FJ} (hd : ∀ i, DifferentiableAt ℝ (fun p : St × St => F p.1 p.2 i) (ul, ur)) (h : IsFluxJac F J ul ur) :
    IsJoint F J ul ur := by
  intro i
  have hD := (hd i).hasFDerivAt
  set L := fderiv ℝ (fun p : St × St => F p.1 p.2 i) (ul, ur) with hL
  have h1 : HasFDerivAt (fun a => F a ur i) (L.comp ((ContinuousLinearMap.id ℝ St).prod 0)) ul :=
    HasFDerivAt.comp ul (f := fun a => (a, ur)) hD ((hasFDerivAt_id ul).prodMk (hasFDerivAt_const ur ul))
  have h2 : HasFDerivAt (fun b => F ul b i) (L.comp ((0 : St →L[ℝ] St).prod (ContinuousLinearMap.id ℝ St))) ur :=
    HasFDerivAt.comp ur (f := fun b => (ul, b)) hD ((hasFDerivAt_const ul ur).prodMk (hasFDerivAt_id ur))
  have e1 := h1.unique (h i).1
  have e2 := h2.unique (h i).2
  refine hD.congr_fderiv ?_
  rw [← e1, ← e2]
  apply ContinuousLinearMap.ext
  rintro ⟨x, y⟩
  have : ((x, y) : St × St) = (x, 0) + (0, y) := by simp
  simp only [ContinuousLinearMap.comp_apply, add_apply, ContinuousLinearMap.prod_apply, ContinuousLinearMap.coe_fst',
    ContinuousLinearMap.coe_snd', ContinuousLinearMap.coe_id', id, zero_apply]
  rw [this, map_add]

/-! ### AUSM -/

/-- The AUSM flux with `s * Mh` in place of `|Mh|`. -/
noncomputable def ausmCoreS (s : ℝ) (ul ur : St) (n : V2) (Mh ph pi pj ci cj : ℝ) : St :=
  ![Mh / 2 * (ul 0 * ci + ur 0 * cj) - s * Mh / 2 * (ur 0 * cj - ul 0 * ci),
    Mh / 2 * (ul 1 * ci + ur 1 * cj) - s * Mh / 2 * (ur 1 * cj - ul 1 * ci) + ph * n 0,
    Mh / 2 * (ul 2 * ci + ur 2 * cj) - s * Mh / 2 * (ur 2 * cj - ul 2 * ci) + ph * n 1,
    Mh / 2 * (ci * (ul 3 + pi) + cj * (ur 3 + pj)) - s * Mh / 2 * (cj * (ur 3 + pj) - ci * (ul 3 + pi))]

theorem ausmCoreS_eq {s Mh : ℝ} (h : |Mh| = s * Mh) (ul ur : St) (n : V2) (ph pi pj ci cj : ℝ) :
    ausmCoreS s ul ur n Mh ph pi pj ci cj = ausmCore ul ur n Mh ph pi pj ci cj := by
  unfold ausmCoreS ausmCore; rw [h]

/-- Interface Mach number of two states. -/
noncomputable def machHalf (G : Gas) (ul ur : St) (n : V2) : ℝ := ausmML (Gas.varsVn ul n / cSide G ul) + ausmMR (Gas.varsVn ur n / cSide G ur)

/-- Interface pressure of two states. -/
noncomputable def pHalf (G : Gas) (ul ur : St) (n : V2) : ℝ :=
  ausmPL (Gas.varsVn ul n / cSide G ul) (G.varsP ul) + ausmPR (Gas.varsVn ur n / cSide G ur) (G.varsP ur)

noncomputable def ausmS (G : Gas) (s : ℝ) (n : V2) (ul ur : St) : St :=
  ausmCoreS s ul ur n (machHalf G ul ur n) (pHalf G ul ur n) (G.varsP ul) (G.varsP ur) (cSide G ul) (cSide G ur)

theorem ausm_eq (G : Gas) (ul ur : St) (n : V2) :
    ausm G ul ur n = ausmCore ul ur n (machHalf G ul ur n) (pHalf G ul ur n) (G.varsP ul) (G.varsP ur) (cSide G ul) (cSide G ur) := rfl

theorem abs_eq_sgn (x : ℝ) : |x| = sgn x * x := by
  unfold sgn
  split_ifs with h
  · rw [abs_of_nonneg h, one_mul]
  · rw [abs_of_neg (lt_of_not_ge h)]; ring

theorem ausmCoreS_left {Mh ph p c : St → ℝ} {dM dP dp dc : St} (pj cj : ℝ) (hM : HasGrad Mh dM ul) (hP : HasGrad ph dP ul) (hp : HasGrad p dp ul)
    (hc : HasGrad c dc ul) (i : Fin 4) : HasGrad (fun v => ausmCoreS (sgn (Mh ul)) v ur n (Mh v) (ph v) (p v) pj (c v) cj i)
      (ausmDL ul ur n (Mh ul) (p ul) pj (c ul) cj dM dP dp dc i) ul := by
  have hs := abs_eq_sgn (Mh ul)
  generalize hsg : sgn (Mh ul) = s at hs ⊢
  have c0 := fun k : Fin 4 => (HasGrad.coord k (u := ul)).mul hc
  have hA := hM.cmul s
  fin_cases i
  · have h1 := ((hM.cmul (1/2)).mul ((c0 0).add (HasGrad.const (ur 0 * cj)))).sub ((hA.cmul (1/2)).mul ((HasGrad.const (ur 0 * cj)).sub (c0 0)))
    refine (h1.congr_of_eventuallyEq (Filter.Eventually.of_forall fun v => ?_)).congr ?_
    · simp [ausmCoreS]; ring
    · funext k; fin_cases k <;> simp [ausmDL, hsg, hs] <;> ring
  · have h1 := (((hM.cmul (1/2)).mul ((c0 1).add (HasGrad.const (ur 1 * cj)))).sub ((hA.cmul (1/2)).mul ((HasGrad.const (ur 1 * cj)).sub (c0 1)))).add
      (hP.mul (HasGrad.const (n 0)))
    refine (h1.congr_of_eventuallyEq (Filter.Eventually.of_forall fun v => ?_)).congr ?_
    · simp [ausmCoreS]; ring
    · funext k; fin_cases k <;> simp [ausmDL, hsg, hs] <;> ring
  · have h1 := (((hM.cmul (1/2)).mul ((c0 2).add (HasGrad.const (ur 2 * cj)))).sub ((hA.cmul (1/2)).mul ((HasGrad.const (ur 2 * cj)).sub (c0 2)))).add
      (hP.mul (HasGrad.const (n 1)))
    refine (h1.congr_of_eventuallyEq (Filter.Eventually.of_forall fun v => ?_)).congr ?_
    · simp [ausmCoreS]; ring
    · funext k; fin_cases k <;> simp [ausmDL, hsg, hs] <;> ring
  · have hE := hc.mul ((HasGrad.coord 3).add hp)
    have h1 := ((hM.cmul (1/2)).mul (hE.add (HasGrad.const (cj * (ur 3 + pj))))).sub ((hA.cmul (1/2)).mul ((HasGrad.const (cj * (ur 3 + pj))).sub hE))
    refine (h1.congr_of_eventuallyEq (Filter.Eventually.of_forall fun v => ?_)).congr ?_
    · simp [ausmCoreS]; ring
    · funext k; fin_cases k <;> simp [ausmDL, hsg, hs] <;> ring

theorem ausmCoreS_right {Mh ph p c : St → ℝ} {dM dP dp dc : St} (pi ci : ℝ) (hM : HasGrad Mh dM ur) (hP : HasGrad ph dP ur) (hp : HasGrad p dp ur)
    (hc : HasGrad c dc ur) (i : Fin 4) : HasGrad (fun v => ausmCoreS (sgn (Mh ur)) ul v n (Mh v) (ph v) pi (p v) ci (c v) i)
      (ausmDR ul ur n (Mh ur) pi (p ur) ci (c ur) dM dP dp dc i) ur := by
  have hs := abs_eq_sgn (Mh ur)
  generalize hsg : sgn (Mh ur) = s at hs ⊢
  have c0 := fun k : Fin 4 => (HasGrad.coord k (u := ur)).mul hc
  have hA := hM.cmul s
  fin_cases i
  · have h1 := ((hM.cmul (1/2)).mul ((HasGrad.const (ul 0 * ci)).add (c0 0))).sub ((hA.cmul (1/2)).mul ((c0 0).sub (HasGrad.const (ul 0 * ci))))
    refine (h1.congr_of_eventuallyEq (Filter.Eventually.of_forall fun v => ?_)).congr ?_
    · simp [ausmCoreS]; ring
    · funext k; fin_cases k <;> simp [ausmDR, hsg, hs] <;> ring
  · have h1 := (((hM.cmul (1/2)).mul ((HasGrad.const (ul 1 * ci)).add (c0 1))).sub ((hA.cmul (1/2)).mul ((c0 1).sub (HasGrad.const (ul 1 * ci))))).add
      (hP.mul (HasGrad.const (n 0)))
    refine (h1.congr_of_eventuallyEq (Filter.Eventually.of_forall fun v => ?_)).congr ?_
    · simp [ausmCoreS]; ring
    · funext k; fin_cases k <;> simp [ausmDR, hsg, hs] <;> ring
  · have h1 := (((hM.cmul (1/2)).mul ((HasGrad.const (ul 2 * ci)).add (c0 2))).sub ((hA.cmul (1/2)).mul ((c0 2).sub (HasGrad.const (ul 2 * ci))))).add
      (hP.mul (HasGrad.const (n 1)))
    refine (h1.congr_of_eventuallyEq (Filter.Eventually.of_forall fun v => ?_)).congr ?_
    · simp [ausmCoreS]; ring
    · funext k; fin_cases k <;> simp [ausmDR, hsg, hs] <;> ring
  · have hE := hc.mul ((HasGrad.coord 3).add hp)
    have h1 := ((hM.cmul (1/2)).mul ((HasGrad.const (ci * (ul 3 + pi))).add hE)).sub ((hA.cmul (1/2)).mul (hE.sub (HasGrad.const (ci * (ul 3 + pi)))))
    refine (h1.congr_of_eventuallyEq (Filter.Eventually.of_forall fun v => ?_)).congr ?_
    · simp [ausmCoreS]; ring
    · funext k; fin_cases k <;> simp [ausmDR, hsg, hs] <;> ring

theorem ausmS_jac (hl : Adm G ul) (hr : Adm G ur) (n : V2) : IsFluxJac (ausmS G (sgn (machHalf G ul ur n)) n) (ausmJac G ul ur n) ul ur := by
  intro i
  constructor
  · have hm := hasGrad_mach hl n
    have hp := hasGrad_varsP (G := G) hl.rho'
    have hM := (hasGrad_ausmML hm).add (HasGrad.const (u := ul) (ausmMR (Gas.varsVn ur n / cSide G ur)))
    have hP := (hasGrad_ausmPL hm hp).add (HasGrad.const (u := ul) (ausmPR (Gas.varsVn ur n / cSide G ur) (G.varsP ur)))
    have h := ausmCoreS_left (ur := ur) (n := n) (G.varsP ur) (cSide G ur) hM hP hp (hasGrad_c hl) i
    refine h.congr ?_
    funext k
    simp only [ausmJac, neg_neg]
    congr 1 <;> (funext q; simp)
  · have hm := hasGrad_mach hr n
    have hp := hasGrad_varsP (G := G) hr.rho'
    have hM := (HasGrad.const (u := ur) (ausmML (Gas.varsVn ul n / cSide G ul))).add (hasGrad_ausmMR hm)
    have hP := (HasGrad.const (u := ur) (ausmPL (Gas.varsVn ul n / cSide G ul) (G.varsP ul))).add (hasGrad_ausmPR hm hp)
    have h := ausmCoreS_right (ul := ul) (n := n) (G.varsP ul) (cSide G ul) hM hP hp (hasGrad_c hr) i
    refine h.congr ?_
    funext k
    simp only [ausmJac]
    congr 1 <;> (funext q; simp)

section
variable {X : Type*} [NormedAddCommGroup X] [NormedSpace ℝ X] {x : X}

theorem diff_ausmCoreS (s : ℝ) (n : V2) {a b : X → St} {Mh ph pi pj ci cj : X → ℝ} (ha : ∀ i, DifferentiableAt ℝ (fun y => a y i) x)
    (hb : ∀ i, DifferentiableAt ℝ (fun y => b y i) x) (h1 : DifferentiableAt ℝ Mh x) (h2 : DifferentiableAt ℝ ph x) (h3 : DifferentiableAt ℝ pi x)
    (h4 : DifferentiableAt ℝ pj x) (h5 : DifferentiableAt ℝ ci x) (h6 : DifferentiableAt ℝ cj x) (i : Fin 4) :
    DifferentiableAt ℝ (fun y => ausmCoreS s (a y) (b y) n (Mh y) (ph y) (pi y) (pj y) (ci y) (cj y) i) x := by
  have a0 := ha 0; have a1 := ha 1; have a2 := ha 2; have a3 := ha 3
  have b0 := hb 0; have b1 := hb 1; have b2 := hb 2; have b3 := hb 3
  fin_cases i <;> simp [ausmCoreS] <;> fun_prop
end

theorem ausmS_joint (hl : Adm G ul) (hr : Adm G ur) (n : V2) : IsJoint (ausmS G (sgn (machHalf G ul ur n)) n) (ausmJac G ul ur n) ul ur := by
  refine isJoint_of_diff (fun i => ?_) (ausmS_jac hl hr n)
  have ml := hasGrad_mach hl n
  have mr := hasGrad_mach hr n
  have pl := hasGrad_varsP (G := G) hl.rho'
  have pr := hasGrad_varsP (G := G) hr.rho'
  exact diff_ausmCoreS _ n (fun i => diff_fst (HasGrad.coord i)) (fun i => diff_snd (HasGrad.coord i))
    ((diff_fst (hasGrad_ausmML ml)).add (diff_snd (hasGrad_ausmMR mr))) ((diff_fst (hasGrad_ausmPL ml pl)).add (diff_snd (hasGrad_ausmPR mr pr)))
    (diff_fst pl) (diff_snd pr) (diff_fst (hasGrad_c hl)) (diff_snd (hasGrad_c hr)) i

/-! ### Roe averages and the Roe flux -/

section
variable {X : Type*} [NormedAddCommGroup X] [NormedSpace ℝ X] {x : X}

theorem ddiv {f g : X → ℝ} (hf : DifferentiableAt ℝ f x) (hg : DifferentiableAt ℝ g x) (h0 : g x ≠ 0) : DifferentiableAt ℝ (fun y => f y / g y) x := by
  simp only [div_eq_mul_inv]
  exact hf.mul (hg.inv h0)

theorem dmul {f g : X → ℝ} (hf : DifferentiableAt ℝ f x) (hg : DifferentiableAt ℝ g x) : DifferentiableAt ℝ (fun y => f y * g y) x := hf.mul hg
theorem dadd {f g : X → ℝ} (hf : DifferentiableAt ℝ f x) (hg : DifferentiableAt ℝ g x) : DifferentiableAt ℝ (fun y => f y + g y) x := hf.add hg
theorem dsub {f g : X → ℝ} (hf : DifferentiableAt ℝ f x) (hg : DifferentiableAt ℝ g x) : DifferentiableAt ℝ (fun y => f y - g y) x := hf.sub hg

/-- All averages are differentiable. -/
structure AvgDiff (A : X → Avg) (x : X) : Prop where
  rho : DifferentiableAt ℝ (fun y => (A y).rho) x
  v : ∀ j, DifferentiableAt ℝ (fun y => (A y).v j) x
  vm2 : DifferentiableAt ℝ (fun y => (A y).vm2) x
  vn : DifferentiableAt ℝ (fun y => (A y).vn) x
  H : DifferentiableAt ℝ (fun y => (A y).H) x
  c : DifferentiableAt ℝ (fun y => (A y).c) x

/-- The Harten fix is differentiable away from its threshold. -/
theorem diff_harten {f d : X → ℝ} (hf : DifferentiableAt ℝ f x) (hd : DifferentiableAt ℝ d x) (hp : 0 < d x) (h : |f x| ≠ d x) :
    DifferentiableAt ℝ (fun y => harten (d y) |f y|) x := by
  rcases lt_or_gt_of_ne h with h | h
  · have hev : ∀ᶠ y in nhds x, |f y| < d y := hf.continuousAt.abs.eventually_lt hd.continuousAt h
    have h1 : DifferentiableAt ℝ (fun y => (f y * f y + d y * d y) / (2 * d y)) x :=
      ddiv (dadd (dmul hf hf) (dmul hd hd)) (hd.const_mul 2) (by positivity)
    refine h1.congr_of_eventuallyEq ?_
    filter_upwards [hev] with y hy
    simp only [harten]; rw [if_pos hy, abs_mul_abs_self]
  · have hev : ∀ᶠ y in nhds x, d y < |f y| := hd.continuousAt.eventually_lt hf.continuousAt.abs h
    have h1 : DifferentiableAt ℝ (fun y => |f y|) x := hf.abs (abs_pos.1 (hp.trans h))
    refine h1.congr_of_eventuallyEq ?_
    filter_upwards [hev] with y hy
    simp only [harten]; rw [if_neg (not_lt.2 hy.le)]

/-- No eigenvalue is exactly at the threshold of the entropy fix. -/
def NoTouch (a : Avg) : Prop := ∀ i, roeL0 a i ≠ fixeps * a.c

theorem diff_roeL {A : X → Avg} (hA : AvgDiff A x) (hc : 0 < (A x).c) (h : NoTouch (A x)) (i : Fin 4) : DifferentiableAt ℝ (fun y => roeL (A y) i) x := by
  have hp : 0 < fixeps * (A x).c := mul_pos (by norm_num [fixeps]) hc
  have hd := hA.c.const_mul fixeps
  fin_cases i
  · exact diff_harten (hA.vn.sub hA.c) hd hp (h 0)
  · exact diff_harten hA.vn hd hp (h 1)
  · exact diff_harten hA.vn hd hp (h 1)
  · exact diff_harten (hA.vn.add hA.c) hd hp (h 3)

theorem diff_roeLA {A : X → Avg} {L : X → St} {dep devn derho : X → ℝ} (hA : AvgDiff A x) (hL : ∀ i, DifferentiableAt ℝ (fun y => L y i) x)
    (h1 : DifferentiableAt ℝ dep x) (h2 : DifferentiableAt ℝ devn x) (h3 : DifferentiableAt ℝ derho x) (hc : (A x).c ≠ 0) (i : Fin 4) :
    DifferentiableAt ℝ (fun y => roeLA (A y) (L y) (dep y) (devn y) (derho y) i) x := by
  have l0 := hL 0; have l1 := hL 1; have l3 := hL 3
  have r := hA.rho; have c := hA.c
  have hcc : (A x).c * (A x).c ≠ 0 := mul_ne_zero hc hc
  have h2c : 2 * (A x).c * (A x).c ≠ 0 := mul_ne_zero (mul_ne_zero two_ne_zero hc) hc
  fin_cases i
  · exact ddiv (dmul l0 (dsub h1 (dmul (dmul r c) h2))) (dmul (c.const_mul 2) c) h2c
  · exact dmul l1 (dsub h3 (ddiv h1 (dmul c c) hcc))
  · exact dmul l1 r
  · exact ddiv (dmul l3 (dadd h1 (dmul (dmul r c) h2))) (dmul (c.const_mul 2) c) h2c

theorem diff_roeADU {A : X → Avg} {la : X → St} {dvx dvy devn : X → ℝ} (n : V2) (hA : AvgDiff A x) (hL : ∀ i, DifferentiableAt ℝ (fun y => la y i) x)
    (h1 : DifferentiableAt ℝ dvx x) (h2 : DifferentiableAt ℝ dvy x) (h3 : DifferentiableAt ℝ devn x) (i : Fin 4) :
    DifferentiableAt ℝ (fun y => roeADU (A y) (la y) n ![dvx y, dvy y] (devn y) i) x := by
  have l0 := hL 0; have l1 := hL 1; have l2 := hL 2; have l3 := hL 3
  have r := hA.rho; have c := hA.c; have v0 := hA.v 0; have v1 := hA.v 1; have m := hA.vm2; have vn := hA.vn; have H := hA.H
  fin_cases i <;> simp [roeADU] <;> fun_prop
end

theorem avgDiff_roe (hl : Adm G ul) (hr : Adm G ur) (n : V2) : AvgDiff (fun p : St × St => roeOf G p.1 p.2 n) (ul, ur) := by
  have hq : ur 0 / ul 0 ≠ 0 := (div_pos hr.rho hl.rho).ne'
  have hR1 : (roeOf G ul ur n).R + 1 ≠ 0 := by have := roe_R_pos (G := G) (n := n) hl.rho hr.rho; positivity
  have hca := (roe_arg_pos (n := n) hl hr).ne'
  have hR : DifferentiableAt ℝ (fun p : St × St => (roeOf G p.1 p.2 n).R) (ul, ur) :=
    DifferentiableAt.sqrt (ddiv (diff_snd (HasGrad.coord 0)) (diff_fst (HasGrad.coord 0)) hl.rho') hq
  have hR' := hR.add_const (1 : ℝ)
  have hv : ∀ j, DifferentiableAt ℝ (fun p : St × St => (roeOf G p.1 p.2 n).v j) (ul, ur) := by
    intro j
    fin_cases j
    · exact ddiv (dadd (dmul hR (diff_snd (hasGrad_vel hr.rho' 0))) (diff_fst (hasGrad_vel hl.rho' 0))) hR' hR1
    · exact ddiv (dadd (dmul hR (diff_snd (hasGrad_vel hr.rho' 1))) (diff_fst (hasGrad_vel hl.rho' 1))) hR' hR1
  have hH : DifferentiableAt ℝ (fun p : St × St => (roeOf G p.1 p.2 n).H) (ul, ur) :=
    ddiv (dadd (dmul hR (diff_snd (hasGrad_varsH hr.rho'))) (diff_fst (hasGrad_varsH hl.rho'))) hR' hR1
  have hm : DifferentiableAt ℝ (fun p : St × St => (roeOf G p.1 p.2 n).vm2) (ul, ur) := dadd (dmul (hv 0) (hv 0)) (dmul (hv 1) (hv 1))
  exact ⟨dmul hR (diff_fst (HasGrad.coord 0)), hv, hm, dadd ((hv 0).mul_const (n 0)) ((hv 1).mul_const (n 1)), hH,
    DifferentiableAt.sqrt ((dsub hH (hm.mul_const (1 / 2))).const_mul (G.g - 1)) hca⟩

/-- The Roe flux is differentiable in both states together away from the threshold of the entropy fix. -/
theorem roe_diff (hl : Adm G ul) (hr : Adm G ur) (n : V2) (h : NoTouch (roeOf G ul ur n)) (i : Fin 4) :
    DifferentiableAt ℝ (fun p : St × St => roe G p.1 p.2 n i) (ul, ur) := by
  have hc := roe_c_pos (n := n) hl hr
  have hA := avgDiff_roe hl hr n
  have vl := hasGrad_varsVn hl.rho' n
  have vr := hasGrad_varsVn hr.rho' n
  have pl := hasGrad_varsP (G := G) hl.rho'
  have pr := hasGrad_varsP (G := G) hr.rho'
  have hdv := (diff_snd (ul := ul) vr).sub (diff_fst (ur := ur) vl)
  have hla := fun i => diff_roeLA hA (diff_roeL hA hc h) ((diff_snd (ul := ul) pr).sub (diff_fst (ur := ur) pl)) hdv
    ((diff_snd (ul := ul) (HasGrad.coord 0 (u := ur))).sub (diff_fst (ur := ur) (HasGrad.coord 0 (u := ul)))) hc.ne' i
  have had := diff_roeADU n hA hla ((diff_snd (ul := ul) (hasGrad_vel hr.rho' 0)).sub (diff_fst (ur := ur) (hasGrad_vel hl.rho' 0)))
    ((diff_snd (ul := ul) (hasGrad_vel hr.rho' 1)).sub (diff_fst (ur := ur) (hasGrad_vel hl.rho' 1))) hdv i
  have hl' : ∀ᶠ p : St × St in nhds (ul, ur), p.1 0 ≠ 0 := (diff_fst (ur := ur) (HasGrad.coord 0 (u := ul))).continuousAt.eventually_ne hl.rho'
  have hr' : ∀ᶠ p : St × St in nhds (ul, ur), p.2 0 ≠ 0 := (diff_snd (ul := ul) (HasGrad.coord 0 (u := ur))).continuousAt.eventually_ne hr.rho'
  have hE := (((diff_fst (ur := ur) (C03_eulerFlux G ul n hl.rho' i)).add (diff_snd (ul := ul) (C03_eulerFlux G ur n hr.rho' i))).sub had).const_mul (1 / 2)
  refine hE.congr_of_eventuallyEq ?_
  filter_upwards [hl', hr'] with p h1 h2
  simp only [Pi.add_apply, Pi.sub_apply]
  rw [eulerFlux_eq h1, eulerFlux_eq h2]; rfl

/-- States between which the middle waves have no strength and the averaged normal velocity vanishes, as at a slip wall. -/
structure MirrorLike (G : Gas) (ul ur : St) (n : V2) : Prop where
  rho : ur 0 = ul 0
  p : G.varsP ur = G.varsP ul
  vn : (roeOf G ul ur n).vn = 0
  vt : ∀ j, Gas.vel ur j - Gas.vel ul j = (Gas.varsVn ur n - Gas.varsVn ul n) * n j

/-- How the rows depend on the derivative of the eigenvalues, for such states: not on that of the middle ones. -/
theorem roeRowL_mirror (h : MirrorLike G ul ur n) (dl dl' : Fin 4 → St) (k : Fin 4) (h0 : dl 0 k = dl' 0 k) (h3 : dl 3 k = dl' 3 k) (i : Fin 4) :
    roeRowL G ul ur n dl i k = roeRowL G ul ur n dl' i k := by
  have v0 := h.vt 0
  have v1 := h.vt 1
  have hn := h.vn
  have e : (roeOf G ul ur n).v 0 * n 0 + (roeOf G ul ur n).v 1 * n 1 = 0 := hn
  fin_cases i
  · simp [roeRowL, roeDADU, roeDLA, h0, h3, h.rho, h.p]
  · simp [roeRowL, roeDADU, roeDLA, h0, h3, h.rho, h.p, v0]
  · simp [roeRowL, roeDADU, roeDLA, h0, h3, h.rho, h.p, v1]
  · simp only [roeRowL, roeDADU, roeDLA, h.rho, h.p, v0, v1, hn]
    simp [h0, h3]
    right
    linear_combination (Gas.varsVn ur n - Gas.varsVn ul n) * e

theorem roeRowR_mirror (h : MirrorLike G ul ur n) (dl dl' : Fin 4 → St) (k : Fin 4) (h0 : dl 0 k = dl' 0 k) (h3 : dl 3 k = dl' 3 k) (i : Fin 4) :
    roeRowR G ul ur n dl i k = roeRowR G ul ur n dl' i k := by
  have v0 := h.vt 0
  have v1 := h.vt 1
  have hn := h.vn
  have e : (roeOf G ul ur n).v 0 * n 0 + (roeOf G ul ur n).v 1 * n 1 = 0 := hn
  fin_cases i
  · simp [roeRowR, roeDADU, roeDLA, h0, h3, h.rho, h.p]
  · simp [roeRowR, roeDADU, roeDLA, h0, h3, h.rho, h.p, v0]
  · simp [roeRowR, roeDADU, roeDLA, h0, h3, h.rho, h.p, v1]
  · simp only [roeRowR, roeDADU, roeDLA, h.rho, h.p, v0, v1, hn]
    simp [h0, h3]
    right
    linear_combination (Gas.varsVn ur n - Gas.varsVn ul n) * e

/-- C18: although the entropy fix is active there, the Roe Jacobian is exact between a state and its mirror image at a slip wall. -/
theorem C18_roe_mirror (hl : Adm G ul) (hr : Adm G ur) (n : V2) (h : MirrorLike G ul ur n) : IsFluxJac (fun a b => roe G a b n) (roeJac G ul ur n) ul ur := by
  have hc := roe_c_pos (n := n) hl hr
  have hf : (0:ℝ) < fixeps := by norm_num [fixeps]
  have hf1 : fixeps < 1 := by norm_num [fixeps]
  have hlt : ¬ (roeOf G ul ur n).c < fixeps * (roeOf G ul ur n).c := by nlinarith
  have hend : ∀ d k, roeDL (roeOf G ul ur n) d 0 k = roeDL0 (roeOf G ul ur n) d 0 k ∧ roeDL (roeOf G ul ur n) d 3 k = roeDL0 (roeOf G ul ur n) d 3 k := by
    intro d k
    constructor
    · simp only [roeDL]; rw [if_neg]; simp [roeL0, h.vn, abs_of_pos hc]; nlinarith
    · simp only [roeDL]; rw [if_neg]; simp [roeL0, h.vn, abs_of_pos hc]; nlinarith
  have hs : ∀ {A : St → Avg} {d : DAvg} {u : St}, HasAvgGrad A d u → A u = roeOf G ul ur n → ∃ dl : Fin 4 → St,
      (∀ i, HasGrad (fun v => roeL (A v) i) (dl i) u) ∧ (∀ k, dl 0 k = roeDL (roeOf G ul ur n) d 0 k) ∧ ∀ k, dl 3 k = roeDL (roeOf G ul ur n) d 3 k := by
    intro A d u hA e
    refine ⟨_, hasGrad_roeL_stagnant hA (by rw [e]; exact hc) (by rw [e]; exact h.vn), fun k => ?_, fun k => ?_⟩
    · rw [(hend d k).1, ← e]; rfl
    · rw [(hend d k).2, ← e]; rfl
  obtain ⟨dl, l1, l2, l3⟩ := hs (C18_roe_averages_left hl hr n) rfl
  obtain ⟨dr, r1, r2, r3⟩ := hs (C18_roe_averages_right hl hr n) rfl
  intro i
  refine ⟨(hasGrad_roe_left hl hr n l1 i).congr ?_, (hasGrad_roe_right hl hr n r1 i).congr ?_⟩
  · funext k; rw [roeJac_rowL]
    exact roeRowL_mirror h _ _ k (l2 k) (l3 k) i
  · funext k; rw [roeJac_rowR]
    exact roeRowR_mirror h _ _ k (r2 k) (r3 k) i

theorem noTouch_of_noFix {a : Avg} (h : NoFix a) : NoTouch a := fun i => (h i).ne'

theorem noTouch_of_stagnant {a : Avg} (hc : 0 < a.c) (h : a.vn = 0) : NoTouch a := by
  intro i
  have hp : 0 < fixeps * a.c := mul_pos (by norm_num [fixeps]) hc
  have hlt : fixeps * a.c < a.c := by have : fixeps < 1 := by norm_num [fixeps]
                                      nlinarith
  have key : ∀ x, x = a.c ∨ x = 0 → x ≠ fixeps * a.c := by rintro x (rfl | rfl) e <;> linarith
  refine key _ ?_
  fin_cases i <;> simp [roeL0, h, abs_of_pos hc]

theorem roe_joint (hl : Adm G ul) (hr : Adm G ur) (n : V2) (h : NoFix (roeOf G ul ur n) ∨ MirrorLike G ul ur n) :
    IsJoint (fun a b => roe G a b n) (roeJac G ul ur n) ul ur := by
  rcases h with h | h
  · exact isJoint_of_diff (roe_diff hl hr n (noTouch_of_noFix h)) (C18_roe_exact_partial hl hr n h)
  · exact isJoint_of_diff (roe_diff hl hr n (noTouch_of_stagnant (roe_c_pos hl hr) h.vn)) (C18_roe_mirror hl hr n h)

/-! ### HLLC -/

/-- Left signal speed with the choice between the two estimates made beforehand. -/
noncomputable def slSel (s : Bool) (G : Gas) (n : V2) (a b : St) : ℝ :=
  if s then (roeOf G a b n).vn - (roeOf G a b n).c else Gas.varsVn a n - cSide G a

/-- Right signal speed with the choice made beforehand. -/
noncomputable def srSel (s : Bool) (G : Gas) (n : V2) (a b : St) : ℝ :=
  if s then (roeOf G a b n).vn + (roeOf G a b n).c else Gas.varsVn b n + cSide G b

noncomputable def smSel (s t : Bool) (G : Gas) (n : V2) (a b : St) : ℝ :=
  contact (a 0) (b 0) (Gas.varsVn a n) (Gas.varsVn b n) (G.varsP a) (G.varsP b) (slSel s G n a b) (srSel t G n a b)

/-- The HLLC flux with all choices made beforehand. -/
noncomputable def hllcSel (q : Fin 4) (s t : Bool) (G : Gas) (n : V2) (a b : St) : St := fun i =>
  match q with
  | 0 => G.eulerFlux a n i
  | 1 => G.eulerFlux a n i + slSel s G n a b * (Flux.star a n (Gas.varsVn a n) (G.varsP a) (slSel s G n a b) (smSel s t G n a b) i - a i)
  | 2 => G.eulerFlux b n i + srSel t G n a b * (Flux.star b n (Gas.varsVn b n) (G.varsP b) (srSel t G n a b) (smSel s t G n a b) i - b i)
  | 3 => G.eulerFlux b n i

open Classical in
/-- The choices the code makes for two states. -/
noncomputable def selL (G : Gas) (n : V2) (a b : St) : Bool := decide (Gas.varsVn a n - cSide G a > (roeOf G a b n).vn - (roeOf G a b n).c)
open Classical in
noncomputable def selR (G : Gas) (n : V2) (a b : St) : Bool := decide (Gas.varsVn b n + cSide G b < (roeOf G a b n).vn + (roeOf G a b n).c)
open Classical in
noncomputable def selQ (G : Gas) (n : V2) (a b : St) : Fin 4 :=
  if slOf G a b n > 0 then 0 else if slOf G a b n ≤ 0 ∧ smOf G a b n > 0 then 1 else if smOf G a b n ≤ 0 ∧ srOf G a b n ≥ 0 then 2 else 3

theorem slSel_eq (G : Gas) (n : V2) (a b : St) : slSel (selL G n a b) G n a b = slOf G a b n := by
  unfold slSel selL slOf waveL
  by_cases h : Gas.varsVn a n - cSide G a > (roeOf G a b n).vn - (roeOf G a b n).c
  · rw [if_pos h, if_pos (decide_eq_true h)]
  · rw [if_neg h, if_neg (by rw [decide_eq_false h]; simp)]

theorem srSel_eq (G : Gas) (n : V2) (a b : St) : srSel (selR G n a b) G n a b = srOf G a b n := by
  unfold srSel selR srOf waveR
  by_cases h : Gas.varsVn b n + cSide G b < (roeOf G a b n).vn + (roeOf G a b n).c
  · rw [if_pos h, if_pos (decide_eq_true h)]
  · rw [if_neg h, if_neg (by rw [decide_eq_false h]; simp)]

theorem smSel_eq (G : Gas) (n : V2) (a b : St) : smSel (selL G n a b) (selR G n a b) G n a b = smOf G a b n := by
  unfold smSel smOf; rw [slSel_eq, srSel_eq]

/-- With the choices of the code the flux is that of the code. -/
theorem hllcSel_eq {a b : St} (ha : a 0 ≠ 0) (hb : b 0 ≠ 0) : hllcSel (selQ G n a b) (selL G n a b) (selR G n a b) G n a b = hllc G a b n := by
  funext i
  unfold hllcSel
  simp only [slSel_eq, srSel_eq, smSel_eq, hllc, hllcCore, eulerFlux_eq ha, eulerFlux_eq hb, selQ]
  split_ifs <;> rfl

theorem selQ_cases (G : Gas) (n : V2) (a b : St) :
    (selQ G n a b = 0 ∧ slOf G a b n > 0) ∨ (selQ G n a b = 1 ∧ ¬ slOf G a b n > 0 ∧ (slOf G a b n ≤ 0 ∧ smOf G a b n > 0)) ∨
      (selQ G n a b = 2 ∧ ¬ slOf G a b n > 0 ∧ ¬ (slOf G a b n ≤ 0 ∧ smOf G a b n > 0) ∧ (smOf G a b n ≤ 0 ∧ srOf G a b n ≥ 0)) ∨
      (selQ G n a b = 3 ∧ ¬ slOf G a b n > 0 ∧ ¬ (slOf G a b n ≤ 0 ∧ smOf G a b n > 0) ∧ ¬ (smOf G a b n ≤ 0 ∧ srOf G a b n ≥ 0)) := by
  unfold selQ
  split_ifs with h1 h2 h3
  · exact Or.inl ⟨rfl, h1⟩
  · exact Or.inr (Or.inl ⟨rfl, h1, h2⟩)
  · exact Or.inr (Or.inr (Or.inl ⟨rfl, h1, h2, h3⟩))
  · exact Or.inr (Or.inr (Or.inr ⟨rfl, h1, h2, h3⟩))

/-- The HLLC blocks are the derivatives of the flux with the choices made at the two states, whether or not a switch is at its threshold. -/
theorem hllcSel_jac (hl : Adm G ul) (hr : Adm G ur) (n : V2) (hw : smOf G ul ur n ≠ srOf G ul ur n) :
    IsFluxJac (hllcSel (selQ G n ul ur) (selL G n ul ur) (selR G n ul ur) G n) (hllcJac G ul ur n) ul ur := by
  have hd := (den_pos (n := n) hl hr).ne'
  have hAl := C18_roe_averages_left hl hr n
  have hAr := C18_roe_averages_right hl hr n
  have hvl := hasGrad_varsVn hl.rho' n
  have hvr := hasGrad_varsVn hr.rho' n
  have hpl := hasGrad_varsP (G := G) hl.rho'
  have hpr := hasGrad_varsP (G := G) hr.rho'
  have hcl := hasGrad_c hl
  have hcr := hasGrad_c hr
  have esl := slSel_eq G n ul ur
  have esr := srSel_eq G n ul ur
  have esm := smSel_eq G n ul ur
  obtain ⟨dsli, hsli, e1⟩ : ∃ d, HasGrad (fun v => slSel (selL G n ul ur) G n v ur) d ul ∧ d = fun k =>
      if Gas.varsVn ul n - cSide G ul > (roeOf G ul ur n).vn - (roeOf G ul ur n).c then
        (dRoeI G.g ul ur n (Gas.vel ul) (G.varsH ul) (Gas.vel ur) (G.varsH ur) (G.dVarsH ul)).dvn k -
          (dRoeI G.g ul ur n (Gas.vel ul) (G.varsH ul) (Gas.vel ur) (G.varsH ur) (G.dVarsH ul)).dc k
      else Gas.dVarsVn ul n k - G.dSoundSpeed (ul 0) (G.varsP ul) (G.dPressure ul) (cSide G ul) k := by
    refine ⟨_, ?_, rfl⟩
    unfold slSel selL
    split_ifs with h1 h2 h2
    · exact hAl.vn.sub hAl.c
    · exact absurd (of_decide_eq_true h1) h2
    · exact absurd (decide_eq_true h2) h1
    · exact hvl.sub hcl
  obtain ⟨dslj, hslj, e2⟩ : ∃ d, HasGrad (fun v => slSel (selL G n ul ur) G n ul v) d ur ∧ d = fun k =>
      if Gas.varsVn ul n - cSide G ul > (roeOf G ul ur n).vn - (roeOf G ul ur n).c then
        (dRoeJ G.g ul ur n (Gas.vel ul) (G.varsH ul) (Gas.vel ur) (G.varsH ur) (G.dVarsH ur)).dvn k -
          (dRoeJ G.g ul ur n (Gas.vel ul) (G.varsH ul) (Gas.vel ur) (G.varsH ur) (G.dVarsH ur)).dc k
      else 0 := by
    refine ⟨_, ?_, rfl⟩
    unfold slSel selL
    split_ifs with h1 h2 h2
    · exact hAr.vn.sub hAr.c
    · exact absurd (of_decide_eq_true h1) h2
    · exact absurd (decide_eq_true h2) h1
    · exact HasGrad.const _
  obtain ⟨dsri, hsri, e3⟩ : ∃ d, HasGrad (fun v => srSel (selR G n ul ur) G n v ur) d ul ∧ d = fun k =>
      if Gas.varsVn ur n + cSide G ur < (roeOf G ul ur n).vn + (roeOf G ul ur n).c then
        (dRoeI G.g ul ur n (Gas.vel ul) (G.varsH ul) (Gas.vel ur) (G.varsH ur) (G.dVarsH ul)).dvn k +
          (dRoeI G.g ul ur n (Gas.vel ul) (G.varsH ul) (Gas.vel ur) (G.varsH ur) (G.dVarsH ul)).dc k
      else 0 := by
    refine ⟨_, ?_, rfl⟩
    unfold srSel selR
    split_ifs with h1 h2 h2
    · exact hAl.vn.add hAl.c
    · exact absurd (of_decide_eq_true h1) h2
    · exact absurd (decide_eq_true h2) h1
    · exact HasGrad.const _
  obtain ⟨dsrj, hsrj, e4⟩ : ∃ d, HasGrad (fun v => srSel (selR G n ul ur) G n ul v) d ur ∧ d = fun k =>
      if Gas.varsVn ur n + cSide G ur < (roeOf G ul ur n).vn + (roeOf G ul ur n).c then
        (dRoeJ G.g ul ur n (Gas.vel ul) (G.varsH ul) (Gas.vel ur) (G.varsH ur) (G.dVarsH ur)).dvn k +
          (dRoeJ G.g ul ur n (Gas.vel ul) (G.varsH ul) (Gas.vel ur) (G.varsH ur) (G.dVarsH ur)).dc k
      else Gas.dVarsVn ur n k + G.dSoundSpeed (ur 0) (G.varsP ur) (G.dPressure ur) (cSide G ur) k := by
    refine ⟨_, ?_, rfl⟩
    unfold srSel selR
    split_ifs with h1 h2 h2
    · exact hAr.vn.add hAr.c
    · exact absurd (of_decide_eq_true h1) h2
    · exact absurd (decide_eq_true h2) h1
    · exact hvr.add hcr
  have hsmi := hasGrad_contact_left (ur 0) (Gas.varsVn ur n) (G.varsP ur) hvl hpl hsli hsri (by rw [esl, esr]; exact hd)
  have hsmj := hasGrad_contact_right (ul 0) (Gas.varsVn ul n) (G.varsP ul) hvr hpr hslj hsrj (by rw [esl, esr]; exact hd)
  change HasGrad (fun v => smSel (selL G n ul ur) (selR G n ul ur) G n v ur) _ ul at hsmi
  change HasGrad (fun v => smSel (selL G n ul ur) (selR G n ul ur) G n ul v) _ ur at hsmj
  rw [esl, esr] at hsmi hsmj
  have e1' := fun k => congrFun e1 k
  have e2' := fun k => congrFun e2 k
  have e3' := fun k => congrFun e3 k
  have e4' := fun k => congrFun e4 k
  intro i
  rcases selQ_cases G n ul ur with ⟨q, h1⟩ | ⟨q, h1, h2⟩ | ⟨q, h1, h2, h3⟩ | ⟨q, h1, h2, h3⟩ <;> rw [q] <;> unfold hllcSel <;> dsimp only
  · refine ⟨(C03_eulerFlux G ul n hl.rho' i).congr ?_, (HasGrad.const _).congr ?_⟩
    · funext k; simp only [hllcJac, if_pos h1]; simp
    · funext k; simp only [hllcJac, if_pos h1]; simp
  · have hsi := hasGrad_star_own n hvl hpl hsli hsmi (by rw [esl, esm]; linarith) i
    have hso := hasGrad_star_other ul n (Gas.varsVn ul n) (G.varsP ul) hslj hsmj (by rw [esl, esm]; linarith) i
    have hF := (C03_eulerFlux G ul n hl.rho' i).add (hsli.mul (hsi.sub (HasGrad.coord i)))
    have hF' := (HasGrad.const (u := ur) (G.eulerFlux ul n i)).add (hslj.mul (hso.sub (HasGrad.const (ul i))))
    refine ⟨hF.congr ?_, hF'.congr ?_⟩
    · funext k
      simp only [hllcJac, if_neg h1, if_pos h2, esl, esm, ← e1', ← e3']
      by_cases hik : i = k
      · subst hik; simp [delta]
      · have hki : ¬ k = i := fun h => hik h.symm
        simp [delta, hik, hki]
    · funext k
      simp only [hllcJac, if_neg h1, if_pos h2, esl, esm, ← e2', ← e4']
      simp
  · have hne : srOf G ul ur n - smOf G ul ur n ≠ 0 := sub_ne_zero.2 hw.symm
    have hso := hasGrad_star_own n hvr hpr hsrj hsmj (by rw [esr, esm]; exact hne) i
    have hsi := hasGrad_star_other ur n (Gas.varsVn ur n) (G.varsP ur) hsri hsmi (by rw [esr, esm]; exact hne) i
    have hF' := (C03_eulerFlux G ur n hr.rho' i).add (hsrj.mul (hso.sub (HasGrad.coord i)))
    have hF := (HasGrad.const (u := ul) (G.eulerFlux ur n i)).add (hsri.mul (hsi.sub (HasGrad.const (ur i))))
    refine ⟨hF.congr ?_, hF'.congr ?_⟩
    · funext k
      simp only [hllcJac, if_neg h1, if_neg h2, if_pos h3, esr, esm, ← e1', ← e3']
      simp
    · funext k
      simp only [hllcJac, if_neg h1, if_neg h2, if_pos h3, esr, esm, ← e2', ← e4']
      by_cases hik : i = k
      · subst hik; simp [delta]
      · have hki : ¬ k = i := fun h => hik h.symm
        simp [delta, hik, hki]
  · refine ⟨(HasGrad.const _).congr ?_, (C03_eulerFlux G ur n hr.rho' i).congr ?_⟩
    · funext k; simp only [hllcJac, if_neg h1, if_neg h2, if_neg h3]; simp
    · funext k; simp only [hllcJac, if_neg h1, if_neg h2, if_neg h3]; try simp

theorem diff_slSel (hl : Adm G ul) (hr : Adm G ur) (n : V2) (s : Bool) : DifferentiableAt ℝ (fun p : St × St => slSel s G n p.1 p.2) (ul, ur) := by
  have hA := avgDiff_roe hl hr n
  unfold slSel
  cases s
  · exact dsub (diff_fst (hasGrad_varsVn hl.rho' n)) (diff_fst (hasGrad_c hl))
  · exact dsub hA.vn hA.c

theorem diff_srSel (hl : Adm G ul) (hr : Adm G ur) (n : V2) (s : Bool) : DifferentiableAt ℝ (fun p : St × St => srSel s G n p.1 p.2) (ul, ur) := by
  have hA := avgDiff_roe hl hr n
  unfold srSel
  cases s
  · exact dadd (diff_snd (hasGrad_varsVn hr.rho' n)) (diff_snd (hasGrad_c hr))
  · exact dadd hA.vn hA.c

theorem diff_smSel (hl : Adm G ul) (hr : Adm G ur) (n : V2) :
    DifferentiableAt ℝ (fun p : St × St => smSel (selL G n ul ur) (selR G n ul ur) G n p.1 p.2) (ul, ur) := by
  have hd := (den_pos (n := n) hl hr).ne'
  have hsl := diff_slSel hl hr n (selL G n ul ur)
  have hsr := diff_srSel hl hr n (selR G n ul ur)
  have vl : DifferentiableAt ℝ (fun p : St × St => Gas.varsVn p.1 n) (ul, ur) := diff_fst (hasGrad_varsVn hl.rho' n)
  have vr : DifferentiableAt ℝ (fun p : St × St => Gas.varsVn p.2 n) (ul, ur) := diff_snd (hasGrad_varsVn hr.rho' n)
  have pl : DifferentiableAt ℝ (fun p : St × St => G.varsP p.1) (ul, ur) := diff_fst (hasGrad_varsP hl.rho')
  have pr : DifferentiableAt ℝ (fun p : St × St => G.varsP p.2) (ul, ur) := diff_snd (hasGrad_varsP hr.rho')
  have rl : DifferentiableAt ℝ (fun p : St × St => p.1 0) (ul, ur) := diff_fst (HasGrad.coord 0)
  have rr : DifferentiableAt ℝ (fun p : St × St => p.2 0) (ul, ur) := diff_snd (HasGrad.coord 0)
  unfold smSel contact
  refine ddiv (dsub (dadd (dsub (dmul (dmul rr vr) (dsub hsr vr)) (dmul (dmul rl vl) (dsub hsl vl))) pl) pr)
    (dsub (dmul rr (dsub hsr vr)) (dmul rl (dsub hsl vl))) ?_
  simp only [slSel_eq, srSel_eq]
  exact hd

theorem diff_star {a : St × St → St} {v q s m : St × St → ℝ} {x : St × St} (n : V2) (ha : ∀ i, DifferentiableAt ℝ (fun y => a y i) x)
    (hv : DifferentiableAt ℝ v x) (hq : DifferentiableAt ℝ q x) (hs : DifferentiableAt ℝ s x) (hm : DifferentiableAt ℝ m x) (h0 : s x - m x ≠ 0) (i : Fin 4) :
    DifferentiableAt ℝ (fun y => Flux.star (a y) n (v y) (q y) (s y) (m y) i) x := by
  have h1 := ha 0
  have h2 := ha 1
  have h3 := ha 2
  have h4 := ha 3
  have hps : DifferentiableAt ℝ (fun y => a y 0 * (v y - s y) * (v y - m y) + q y) x := by fun_prop
  fin_cases i
  · exact ddiv (by fun_prop) (dsub hs hm) h0
  · exact ddiv (by fun_prop) (dsub hs hm) h0
  · exact ddiv (by fun_prop) (dsub hs hm) h0
  · exact ddiv (by fun_prop) (dsub hs hm) h0

theorem hllcSel_diff (hl : Adm G ul) (hr : Adm G ur) (n : V2) (hw : smOf G ul ur n ≠ srOf G ul ur n) (i : Fin 4) :
    DifferentiableAt ℝ (fun p : St × St => hllcSel (selQ G n ul ur) (selL G n ul ur) (selR G n ul ur) G n p.1 p.2 i) (ul, ur) := by
  have hsl := diff_slSel hl hr n (selL G n ul ur)
  have hsr := diff_srSel hl hr n (selR G n ul ur)
  have hsm := diff_smSel hl hr n
  have vl : DifferentiableAt ℝ (fun p : St × St => Gas.varsVn p.1 n) (ul, ur) := diff_fst (hasGrad_varsVn hl.rho' n)
  have vr : DifferentiableAt ℝ (fun p : St × St => Gas.varsVn p.2 n) (ul, ur) := diff_snd (hasGrad_varsVn hr.rho' n)
  have pl : DifferentiableAt ℝ (fun p : St × St => G.varsP p.1) (ul, ur) := diff_fst (hasGrad_varsP hl.rho')
  have pr : DifferentiableAt ℝ (fun p : St × St => G.varsP p.2) (ul, ur) := diff_snd (hasGrad_varsP hr.rho')
  have cl : ∀ j, DifferentiableAt ℝ (fun p : St × St => p.1 j) (ul, ur) := fun j => diff_fst (HasGrad.coord j)
  have cr : ∀ j, DifferentiableAt ℝ (fun p : St × St => p.2 j) (ul, ur) := fun j => diff_snd (HasGrad.coord j)
  have el : DifferentiableAt ℝ (fun p : St × St => G.eulerFlux p.1 n i) (ul, ur) := diff_fst (C03_eulerFlux G ul n hl.rho' i)
  have er : DifferentiableAt ℝ (fun p : St × St => G.eulerFlux p.2 n i) (ul, ur) := diff_snd (C03_eulerFlux G ur n hr.rho' i)
  rcases selQ_cases G n ul ur with ⟨q, h1⟩ | ⟨q, h1, h2⟩ | ⟨q, h1, h2, h3⟩ | ⟨q, h1, h2, h3⟩ <;> rw [q] <;> unfold hllcSel <;> dsimp only
  · exact el
  · refine dadd el (dmul hsl (dsub (diff_star n cl vl pl hsl hsm ?_ i) (cl i)))
    simp only [slSel_eq, smSel_eq]; linarith
  · refine dadd er (dmul hsr (dsub (diff_star n cr vr pr hsr hsm ?_ i) (cr i)))
    simp only [srSel_eq, smSel_eq]; exact sub_ne_zero.2 hw.symm
  · exact er

theorem hllcSel_joint (hl : Adm G ul) (hr : Adm G ur) (n : V2) (hw : smOf G ul ur n ≠ srOf G ul ur n) :
    IsJoint (hllcSel (selQ G n ul ur) (selL G n ul ur) (selR G n ul ur) G n) (hllcJac G ul ur n) ul ur :=
  isJoint_of_diff (hllcSel_diff hl hr n hw) (hllcSel_jac hl hr n hw)

theorem decide_ev {X : Type*} [TopologicalSpace X] {f g : X → ℝ} {x : X} (hf : ContinuousAt f x) (hg : ContinuousAt g x) (h : f x ≠ g x) :
    ∀ᶠ y in nhds x, (f y < g y ↔ f x < g x) := by
  rcases lt_or_gt_of_ne h with h | h
  · filter_upwards [hf.eventually_lt hg h] with y hy
    exact iff_of_true hy h
  · filter_upwards [hg.eventually_lt hf h] with y hy
    exact iff_of_false (not_lt.2 hy.le) (not_lt.2 h.le)

/-- Near states without tie in the estimates the choice of estimates is the same. -/
theorem selL_ev (hl : Adm G ul) (hr : Adm G ur) (n : V2) (h : Gas.varsVn ul n - cSide G ul ≠ (roeOf G ul ur n).vn - (roeOf G ul ur n).c) :
    ∀ᶠ p : St × St in nhds (ul, ur), selL G n p.1 p.2 = selL G n ul ur := by
  have hA := avgDiff_roe hl hr n
  filter_upwards [decide_ev (x := (ul, ur)) (dsub hA.vn hA.c).continuousAt
    (dsub (diff_fst (hasGrad_varsVn hl.rho' n)) (diff_fst (hasGrad_c hl))).continuousAt h.symm] with p hp
  unfold selL
  exact decide_eq_decide.2 hp

theorem selR_ev (hl : Adm G ul) (hr : Adm G ur) (n : V2) (h : Gas.varsVn ur n + cSide G ur ≠ (roeOf G ul ur n).vn + (roeOf G ul ur n).c) :
    ∀ᶠ p : St × St in nhds (ul, ur), selR G n p.1 p.2 = selR G n ul ur := by
  have hA := avgDiff_roe hl hr n
  filter_upwards [decide_ev (x := (ul, ur)) (dadd (diff_snd (hasGrad_varsVn hr.rho' n)) (diff_snd (hasGrad_c hr))).continuousAt
    (dadd hA.vn hA.c).continuousAt h] with p hp
  unfold selR
  exact decide_eq_decide.2 hp

/-- Near states without ties the flux of the code makes the same choices. -/
theorem hllc_ev (hl : Adm G ul) (hr : Adm G ur) (n : V2) (ht : NoTie G ul ur n) :
    ∀ᶠ p : St × St in nhds (ul, ur), hllc G p.1 p.2 n = hllcSel (selQ G n ul ur) (selL G n ul ur) (selR G n ul ur) G n p.1 p.2 := by
  have z : ∀ {x : St × St}, ContinuousAt (fun _ : St × St => (0 : ℝ)) x := fun {_} => continuousAt_const
  filter_upwards [selL_ev hl hr n ht.l, selR_ev hl hr n ht.r,
    (diff_fst (ur := ur) (HasGrad.coord 0 (u := ul))).continuousAt.eventually_ne hl.rho',
    (diff_snd (ul := ul) (HasGrad.coord 0 (u := ur))).continuousAt.eventually_ne hr.rho',
    decide_ev z (diff_slSel hl hr n (selL G n ul ur)).continuousAt (by simp only [slSel_eq]; exact ht.sl.symm),
    decide_ev z (diff_smSel hl hr n).continuousAt (by simp only [smSel_eq]; exact ht.sm.symm),
    decide_ev (diff_srSel hl hr n (selR G n ul ur)).continuousAt z (by simp only [srSel_eq]; exact ht.sr)] with p h1 h2 h3 h4 h5 h6 h7
  rw [← hllcSel_eq h3 h4, h1, h2]
  have e : selQ G n p.1 p.2 = selQ G n ul ur := by
    rw [← h1, slSel_eq, h1, slSel_eq] at h5
    rw [← h1, ← h2, smSel_eq, h1, h2, smSel_eq] at h6
    rw [← h2, srSel_eq, h2, srSel_eq] at h7
    unfold selQ
    simp only [gt_iff_lt, ge_iff_le, ← not_lt, h5, h6, h7]
  rw [e]

/-- HLLC blocks are joint derivatives away from the switches. -/
theorem hllc_joint (hl : Adm G ul) (hr : Adm G ur) (n : V2) (hw : smOf G ul ur n ≠ srOf G ul ur n) (ht : NoTie G ul ur n) :
    IsJoint (fun a b => hllc G a b n) (hllcJac G ul ur n) ul ur := by
  intro i
  refine (hllcSel_joint hl hr n hw i).congr_of_eventuallyEq ?_
  filter_upwards [hllc_ev hl hr n ht] with p hp
  exact congrFun hp i

/-- AUSM blocks are joint derivatives where the interface Mach number is not zero. -/
theorem ausm_joint (hl : Adm G ul) (hr : Adm G ur) (n : V2) (hM : machHalf G ul ur n ≠ 0) :
    IsJoint (fun a b => ausm G a b n) (ausmJac G ul ur n) ul ur := by
  intro i
  have hc : ContinuousAt (fun p : St × St => machHalf G p.1 p.2 n) (ul, ur) :=
    (dadd (diff_fst (hasGrad_ausmML (hasGrad_mach hl n))) (diff_snd (hasGrad_ausmMR (hasGrad_mach hr n)))).continuousAt
  refine (ausmS_joint hl hr n i).congr_of_eventuallyEq ?_
  filter_upwards [decide_ev (f := fun _ => (0 : ℝ)) continuousAt_const hc hM.symm, decide_ev (g := fun _ => (0 : ℝ)) hc continuousAt_const hM] with p h1 h2
  have e : |machHalf G p.1 p.2 n| = sgn (machHalf G ul ur n) * machHalf G p.1 p.2 n := by
    rcases lt_or_gt_of_ne hM with h | h
    · have := h2.2 h
      rw [abs_of_neg this, sgn, if_neg (not_le.2 h)]; ring
    · have := h1.2 h
      rw [abs_of_pos this, sgn, if_pos h.le]; ring
  unfold ausmS
  rw [ausm_eq, ausmCoreS_eq e]

end Disc
end FV
end FVENS
