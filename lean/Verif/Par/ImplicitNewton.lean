import Verif.Par.ImplicitRun
import Verif.FV.JacBoundary
import Verif.Par.Positive

/-!
# The implicit update as a linearised backward Euler step (C96)
-/

namespace FVENS
namespace Par

open Msh FV FV.Disc Flux Ode Lin
open Finset (range sum_eq_zero sum_congr)

/-- The states moved from `u` in the direction `x`. -/
def along (u x : ℕ → St) (t : ℝ) : ℕ → St := fun j v => u j v + t * x j v

section
variable {D : Disc} {J : St → St → V2 → FJ} {u x : ℕ → St}

theorem along_hasDerivAt (u x : ℕ → St) (j : ℕ) : HasDerivAt (fun t => along u x t j) (x j) 0 := by
  rw [hasDerivAt_pi]
  intro v
  have := ((hasDerivAt_id (0 : ℝ)).mul_const (x j v)).const_add (u j v)
  simpa [along] using this

theorem along_zero (u x : ℕ → St) (j : ℕ) : along u x 0 j = u j := by
  funext v; simp [along]

/-- C96: where the face fluxes have the face blocks as derivatives, jointly in both states, the product of the assembled Jacobian with any vector is the derivative of the
spatial residual (the negative of what `compute_residual` accumulates) along this vector. -/
theorem C96_product (h : D.G.Ok) (hnc : D.G.m.nconnface = 0) (hok : D.BcOk)
    (hb : ∀ k, k < D.G.m.nbface → ∀ v,
      HasGrad (fun a => D.flux2 k a (D.bstate k a) v) (-(D.blkBoundary J (D.bjac k) k (u (D.G.face k).left) v)) (u (D.G.face k).left))
    (hi : ∀ k, k < D.G.nface → D.G.m.nbface ≤ k → IsJoint (D.flux2 k)
      (D.blkInterior J k (u (D.G.face k).left) (u (D.G.face k).right)) (u (D.G.face k).left) (u (D.G.face k).right)) (x : ℕ → St)
    {res : (ℕ → St) → ℕ → St} (hres : ∀ w, ∃ o, D.residual1 w 0 = some o ∧ o.res = res w) {i : ℕ} (hin : i < D.G.m.nelem) (v : Fin 4) :
      HasDerivAt (fun t => res (along u x t) i v) (-(mulRow D.G.m.nelem (D.jacSum J (oneCol D.G.m) u) x i v)) 0 := by
  obtain rfl : res = fun w => assemble D.G.m.nelem D.G.s.faces (fluxAt D.G (fun k a => D.flux2 k a (D.bstate k a)) D.flux2 w) 0 := by
    funext w
    obtain ⟨o, h1, h2⟩ := hres w
    obtain ⟨o', h3, h4⟩ := D.residual1_eq hok w 0
    rw [h1] at h3
    cases h3
    exact h2.symm.trans h4
  have e1 : -(mulRow D.G.m.nelem (D.jacSum J (oneCol D.G.m) u) x i v) = 0 + ∑ k ∈ range D.G.nface, -(∑ q ∈ range D.G.m.nelem, ∑ c,
      amtAt (i, q) (jacUpds D.G (oneCol D.G.m) (fun k => D.blkBoundary J (D.bjac k) k (u (D.G.face k).left))
        (fun k => (D.blkInterior J k (u (D.G.face k).left) (u (D.G.face k).right)).dfdl)
        (fun k => (D.blkInterior J k (u (D.G.face k).left) (u (D.G.face k).right)).dfdr) k) v c * x q c) := by
    simp only [mulRow, Disc.jacSum, Finset.sum_apply, Finset.sum_mul, Finset.sum_neg_distrib, zero_add]
    congr 1
    symm
    rw [Finset.sum_comm]
    refine sum_congr rfl fun q _ => ?_
    rw [Finset.sum_comm]
  rw [e1]
  simp only [assemble_eq, Pi.add_apply, Finset.sum_apply, Pi.zero_apply]
  refine (hasDerivAt_const (0 : ℝ) (0 : ℝ)).add (HasDerivAt.fun_sum fun k hk => ?_)
  have hk := Finset.mem_range.1 hk
  obtain ⟨k1, k2, k3, k4, k5⟩ := h.kind hk
  change HasDerivAt (fun t => contrib D.G.m.nelem (D.G.face k) (fluxAt D.G (fun k a => D.flux2 k a (D.bstate k a)) D.flux2 (along u x t) k) i v) _ 0
  have hl0 : oneCol D.G.m (D.G.face k).left = some (D.G.face k).left := oneCol_row k1
  have pick : ∀ (a b : ℕ) (B : Blk (Fin 4)), b < D.G.m.nelem → ∑ q ∈ range D.G.m.nelem, ∑ c, (if a = i ∧ b = q then B else 0) v c * x q c =
      if a = i then ∑ c, B v c * x b c else 0 := fun a b B hbn => by
    by_cases ha : a = i
    · simp only [ha, true_and, if_true]
      rw [Finset.sum_eq_single b]
      · simp
      · intro q _ hq
        rw [if_neg (Ne.symm hq)]; simp
      · exact fun hc => absurd (Finset.mem_range.2 hbn) hc
    · simp [ha]
  by_cases hkb : k < D.G.m.nbface
  · -- boundary face
    have hf := hb k hkb v
    rw [← along_zero u x] at hf
    have hd := HasFDerivAt.comp_hasDerivAt (0 : ℝ) (f := fun t => along u x t (D.G.face k).left) hf (along_hasDerivAt u x (D.G.face k).left)
    have hr : ¬ ((D.G.face k).right = i ∧ i < D.G.m.nelem) := by
      rintro ⟨e, -⟩
      have : ¬ D.G.inner k := fun hin' => by have := hin'.1; omega
      exact this (k4.2 (by rw [e]; exact hin))
    simp only [contrib, if_neg hr, zero_sub, fluxAt, if_pos hkb, jacUpds, amtAt_ent, hl0, Option.some.injEq]
    rw [pick _ _ _ k1]
    by_cases hli : (D.G.face k).left = i
    · simp only [if_pos hli]
      refine hd.neg.congr_deriv ?_
      rw [row_apply]
      simp only [Pi.neg_apply, along_zero, Fin.sum_univ_four]
    · simp only [if_neg hli, Pi.zero_apply, neg_zero]
      exact hasDerivAt_const _ _
  · -- interior face
    have hkb' : D.G.m.nbface ≤ k := by omega
    have hrn : (D.G.face k).right < D.G.m.nelem := by have := k5 hkb'; omega
    have hinr : D.G.inner k := k4.2 hrn
    have hr0 : oneCol D.G.m (D.G.face k).right = some (D.G.face k).right := oneCol_row hrn
    have hf := hi k hk hkb' v
    have hpt : ((u (D.G.face k).left, u (D.G.face k).right) : St × St) = (along u x 0 (D.G.face k).left, along u x 0 (D.G.face k).right) := by
      rw [along_zero, along_zero]
    rw [hpt] at hf
    have hd := HasFDerivAt.comp_hasDerivAt (0 : ℝ) (f := fun t => (along u x t (D.G.face k).left, along u x t (D.G.face k).right)) hf
      ((along_hasDerivAt u x (D.G.face k).left).prodMk (along_hasDerivAt u x (D.G.face k).right))
    simp only [ContinuousLinearMap.comp_apply, ContinuousLinearMap.coe_fst', ContinuousLinearMap.coe_snd', row_apply, add_apply] at hd
    simp only [contrib, fluxAt, if_neg hkb, jacUpds, if_pos hinr, amtAt_append, amtAt_ent, hl0, hr0, Option.some.injEq, Pi.add_apply, add_mul, Finset.sum_add_distrib]
    rw [pick _ _ _ k1, pick _ _ _ hrn, pick _ _ _ k1, pick _ _ _ hrn]
    simp only [hin, and_true]
    by_cases hri : (D.G.face k).right = i
    · have hli : ¬ (D.G.face k).left = i := fun e => k2 (e.trans hri.symm)
      simp only [if_pos hri, if_neg hli, sub_zero, add_zero]
      refine hd.congr_deriv ?_
      simp only [Pi.neg_apply, Fin.sum_univ_four]
      ring
    · by_cases hli : (D.G.face k).left = i
      · simp only [if_neg hri, if_pos hli, zero_sub, zero_add, add_zero]
        refine hd.neg.congr_deriv ?_
        simp only [Pi.neg_apply, Fin.sum_univ_four]
        ring
      · simp only [if_neg hri, if_neg hli, sub_zero, add_zero, neg_zero, Pi.zero_apply]
        exact hasDerivAt_const _ _

/-- C96: where moreover the linear solver is exact and the matrix regular, an implicit iteration without under-relaxation is a backward Euler step over the local time steps
times the CFL number, with the residual replaced by its linearisation about the old states. -/
theorem C96_newton (h : D.G.Ok) (hnc : D.G.m.nconnface = 0) (hok : D.BcOk)
    (hb : ∀ k, k < D.G.m.nbface → ∀ v,
      HasGrad (fun a => D.flux2 k a (D.bstate k a) v) (-(D.blkBoundary J (D.bjac k) k (u (D.G.face k).left) v)) (u (D.G.face k).left))
    (hi : ∀ k, k < D.G.nface → D.G.m.nbface ≤ k → IsJoint (D.flux2 k)
      (D.blkInterior J k (u (D.G.face k).left) (u (D.G.face k).right)) (u (D.G.face k).left) (u (D.G.face k).right))
    {ksp : (ℕ × ℕ → Blk (Fin 4)) → (ℕ → St) → ℕ → St} (hk : Exact D.G.m.nelem ksp) {o : Disc.Out} (ho : D.residual1 u 0 = some o) {cfl : ℝ}
    (hreg : Regular D.G.m.nelem (sysOne D J u o cfl)) {u' : ℕ → St} (hu' : (implicit D J (fun _ _ => 1) ksp).upd cfl u = u')
    {res : (ℕ → St) → ℕ → St} (hres : ∀ w, ∃ o, D.residual1 w 0 = some o ∧ o.res = res w) {i : ℕ} (hin : i < D.G.m.nelem) (v : Fin 4) :
    ∃ d, HasDerivAt (fun t => res (fun j w => u j w + t * (u' j w - u j w)) i v) d 0 ∧
      D.G.ar i / (cfl * D.timestep o.uL o.uR i) * (u' i v - u i v) = res u i v + d := by
  obtain ⟨o', ho', e⟩ := hres u
  rw [ho] at ho'
  cases ho'
  refine ⟨_, C96_product h hnc hok hb hi (fun j w => u' j w - u j w) hres hin v, ?_⟩
  have hx := congrFun (hk _ o.res hreg i hin) v
  have hd : ∀ q, q < D.G.m.nelem → ksp (sysOne D J u o cfl) o.res q = fun w => u' q w - u q w := fun q hq => by
    funext w
    rw [← hu']
    simp only [implicit, ho, relaxed, if_pos hq]
    ring
  rw [mulRow_congr (B := sysOne D J u o cfl) (fun _ _ => rfl) hd, sysOne_mulRow _ hin, e] at hx
  linarith

theorem flux2_joint (D : Disc) {J : St → St → V2 → FJ} (k : ℕ) {ul ur : St}
    (hJ : IsJoint (fun a b => D.scheme.flux D.gas a b (D.G.nrm k)) (J ul ur (D.G.nrm k)) ul ur) (hl : D.ViscOk ul) (hr : D.ViscOk ur) :
    IsJoint (D.flux2 k) (D.blkInterior J k ul ur) ul ur := by
  refine isJoint_of_diff (fun i => ?_) (D.C50_interior_blocks k (isJoint_isFluxJac hJ) hl hr)
  unfold flux2
  refine dadd ((hJ i).differentiableAt.mul_const _) ?_
  by_cases hv : D.viscous
  · simp only [hv, if_true]
    exact (viscous_joint D.gas D.constVisc (D.G.nrm k) (D.G.xl k) (D.G.xr k) (hl hv).1 (hr hv).1 (hl hv).2 (hr hv).2 i).differentiableAt.mul_const _
  · simp only [hv, Bool.false_eq_true, if_false]
    exact differentiableAt_const _

/-- C96 for AUSM, Roe and HLLC on a single process, with walls, far fields, outlets and free in- and outflow, inviscid or with constant viscosity, under the hypotheses of
`C50_boundaries`: an implicit iteration is a linearised backward Euler step. -/
theorem C96_newton_schemes (h : D.G.Ok) (hnc : D.G.m.nconnface = 0) (hv : D.viscous = true → D.constVisc = true) (hu : ∀ i, i < D.G.m.nelem → Adm D.gas (u i))
    (hb : ∀ k, k < D.G.m.nbface → ∃ o, D.bc (D.tag k) = some o ∧ BdSmooth D.gas D.scheme (u (D.G.face k).left) (D.G.nrm k) o)
    (hi : ∀ k, k < D.G.nface → D.G.m.nbface ≤ k → Smooth D.gas (u (D.G.face k).left) (u (D.G.face k).right) (D.G.nrm k) D.scheme)
    {ksp : (ℕ × ℕ → Blk (Fin 4)) → (ℕ → St) → ℕ → St} (hk : Exact D.G.m.nelem ksp) {o : Disc.Out} (ho : D.residual1 u 0 = some o) {cfl : ℝ}
    (hreg : Regular D.G.m.nelem (sysOne D (exactJac D.gas D.scheme) u o cfl)) {u' : ℕ → St}
    (hu' : (implicit D (exactJac D.gas D.scheme) (fun _ _ => 1) ksp).upd cfl u = u')
    {res : (ℕ → St) → ℕ → St} (hres : ∀ w, ∃ o, D.residual1 w 0 = some o ∧ o.res = res w) {i : ℕ} (hin : i < D.G.m.nelem) (v : Fin 4) :
    ∃ d, HasDerivAt (fun t => res (fun j w => u j w + t * (u' j w - u j w)) i v) d 0 ∧
      D.G.ar i / (cfl * D.timestep o.uL o.uR i) * (u' i v - u i v) = res u i v + d := by
  have hvo : ∀ {a : St}, Adm D.gas a → D.ViscOk a := fun ha hv' => ⟨ha.rho', fun hc' => by simp [hv hv'] at hc'⟩
  have hL : ∀ k, k < D.G.nface → Adm D.gas (u (D.G.face k).left) := fun k hk => hu _ (h.kind hk).1
  refine C96_newton h hnc (fun k hk => by obtain ⟨o, ho, -⟩ := hb k hk; rw [ho]; rfl) ?_ ?_ hk ho hreg hu' hres hin v
  · intro k hk v
    have hk' : k < D.G.nface := bnd_lt h hk
    obtain ⟨o, ho, hS⟩ := hb k hk
    have hn := nrm_unit h hk'
    obtain ⟨g, e1, e2, e3⟩ := C50_boundary_flux (hL k hk') hn hS
    have eg : ∀ a, D.bstate k a = o.ghost D.gas a (D.G.nrm k) := fun a => by simp [bstate, ho]
    have ej : D.bjac k = g := by simp [bjac, ho, e1]
    refine C50_boundary_exact D k ?_ ?_ (hvo (hL k hk')) (hvo (by rw [eg]; exact bdSmooth_adm (hL k hk') hn hS)) v
    · simp only [eg, ej]; exact e2
    · simp only [eg, ej]; exact e3
  · intro k hk hk'
    have hR : Adm D.gas (u (D.G.face k).right) := hu _ (by have := (h.kind hk).2.2.2.2 hk'; omega)
    exact flux2_joint D k (smooth_joint (hL k hk) hR _ (hi k hk hk')) (hvo (hL k hk)) (hvo hR)

end

/-! ### Concrete case -/

/-- Viscous air between slip and no-slip walls, AUSM. -/
noncomputable def airWalls : Settings := ⟨air, .ausm, true, true, fun t => if t = 1 then some .slip else some (.adiabatic 0)⟩

/-- Two squares of gas moving obliquely: hypotheses of `C96_newton_schemes` are met at all small enough CFL numbers by any exact linear solver. -/
example : ∃ s, topological pair = .ok s ∧ ∀ ksp, Exact 2 ksp → ∃ c0, 0 < c0 ∧ ∀ cfl, 0 < cfl → cfl ≤ c0 → ∃ (res : (ℕ → St) → ℕ → St) (dt : ℕ → ℝ) (u' : ℕ → St),
    (implicit (airWalls.disc pair s 0) (ausmJac air) (fun _ _ => 1) ksp).upd cfl (fun _ => uEx) = u' ∧
    (∀ w, ∃ o, (airWalls.disc pair s 0).residual1 w 0 = some o ∧ o.res = res w) ∧
    ∀ i, i < 2 → ∀ v, ∃ d, HasDerivAt (fun t => res (fun j w => uEx w + t * (u' j w - uEx w)) i v) d 0 ∧
      1 / (cfl * dt i) * (u' i v - uEx v) = res (fun _ => uEx) i v + d := by
  obtain ⟨s, hs, hf⟩ := pair_topological
  refine ⟨s, hs, fun ksp hk => ?_⟩
  set D := airWalls.disc pair s 0 with hD
  have hok : D.G.Ok := ⟨pair_conforming, pair_nozero, hs⟩
  have hbc0 : ∀ t, D.bc t = if t = 1 then some .slip else some (.adiabatic 0) := fun _ => rfl
  have hbc : ∀ k, k < D.G.m.nbface → ∃ o, D.bc (D.tag k) = some o ∧ BdSmooth D.gas D.scheme uEx (D.G.nrm k) o := fun k _ => by
    by_cases ht : D.tag k = 1
    · exact ⟨.slip, by rw [hbc0, if_pos ht], Or.inl rfl⟩
    · exact ⟨.adiabatic 0, by rw [hbc0, if_neg ht], Or.inl ⟨rfl, Or.inl rfl⟩⟩
  have hb : D.BcOk := fun k hk => by obtain ⟨o, ho, -⟩ := hbc k hk; rw [ho]; rfl
  have har : ∀ i, i < 2 → D.G.ar i = 1 := fun i hi => pair_area hi
  have hg : D.GasOk := ⟨by norm_num [hD, airWalls, Settings.disc, air], by norm_num [hD, airWalls, Settings.disc, air], by norm_num [hD, airWalls, Settings.disc, air],
    by norm_num [hD, airWalls, Settings.disc, air]⟩
  obtain ⟨c0, hc0, hreg⟩ := regular_small (u := fun _ => uEx) hok hg hb (fun _ _ => uEx_adm) (fun i hi => by rw [har i hi]; norm_num) (ausmJac air)
  refine ⟨c0, hc0, fun cfl hc hc' => ?_⟩
  have hres : ∀ w, ∃ o, D.residual1 w 0 = some o := fun w => ⟨_, by unfold Disc.residual1; rw [if_pos hb]⟩
  choose o ho using hres
  refine ⟨fun w => (o w).res, fun i => D.timestep (o fun _ => uEx).uL (o fun _ => uEx).uR i, _, rfl, fun w => ⟨o w, ho w, rfl⟩, fun i hi v => ?_⟩
  have := C96_newton_schemes (D := D) (u := fun _ => uEx) hok rfl (fun _ => rfl) (fun _ _ => uEx_adm) hbc (fun k hk hk' => ?_) hk (ho _) (hreg cfl hc hc' _ (ho _)) rfl
    (fun w => ⟨o w, ho w, rfl⟩) hi v
  · rw [har i hi] at this
    exact this
  · obtain rfl : k = 6 := by
      have h1 : D.G.nface = 7 := by show s.faces.length = 7; rw [hf]; rfl
      have h2 : D.G.m.nbface = 6 := rfl
      omega
    change machHalf air uEx uEx (D.G.nrm 6) ≠ 0
    unfold machHalf
    rw [(ausm_split_sum _ 0 0 0 0).1]
    refine div_ne_zero ?_ uEx_adm.c_pos.ne'
    have e : D.G.nrm 6 = ![1, 0] := by
      have h6 : D.G.face 6 = ⟨0, 1, 1, 4⟩ := by show faceAt s.faces 6 = _; rw [hf]; rfl
      unfold Geo.nrm fNrm
      rw [h6]
      norm_num [fLen, pair, hD, Settings.disc]
    rw [e]
    norm_num [Gas.varsVn, dot, Gas.vel, uEx]

end Par
end FVENS
