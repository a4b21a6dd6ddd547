import Verif.Par.Positive
import Verif.Par.Steady
import Verif.Flux.Upwind

/-!
# No influence against a supersonic stream (C98)

If the gas leaves a set of cells at supersonic speed through every face that borders on other cells, what happens in the other cells has no effect on the set.
-/

namespace FVENS
namespace Par

open Msh FV Flux Ode
open Finset (range sum_eq_zero sum_congr mem_range mem_filter)

/-! ### Specification -/

/-- The gas moves from state `a` to state `b` along `n` faster than sound. Van Leer and AUSM measure each side by itself, AUSM+ by the critical speed, HLL and HLLC by the slowest signal,
Roe by the mean state and the width of the entropy fix. -/
def Faster (s : Scheme) (G : Gas) (a b : St) (n : V2) : Prop :=
  match s with
  | .llf => False
  | .vanLeer => cSide G a < Gas.varsVn a n ∧ cSide G b < Gas.varsVn b n
  | .ausm => cSide G a < Gas.varsVn a n ∧ cSide G b < Gas.varsVn b n
  | .ausmPlus => critC G.g (cSide G a) (dot (Gas.vel a) (Gas.vel a)) < Gas.varsVn a n ∧ critC G.g (cSide G b) (dot (Gas.vel b) (Gas.vel b)) < Gas.varsVn b n
  | .roe => fixeps * (roeOf G a b n).c ≤ (roeOf G a b n).vn - (roeOf G a b n).c
  | .hll => 0 < slOf G a b n
  | .hllc => 0 < slOf G a b n

/-- Through every face between the set and other cells the gas leaves the set faster than sound. -/
def Leaves (D : Disc) (U : ℕ → Prop) (u : ℕ → St) : Prop := ∀ k, k < D.G.nface → D.G.m.nbface ≤ k →
  (U (D.G.face k).left → ¬ U (D.G.face k).right → Faster D.scheme D.gas (u (D.G.face k).left) (u (D.G.face k).right) (D.G.nrm k)) ∧
  (U (D.G.face k).right → ¬ U (D.G.face k).left → Faster D.scheme D.gas (u (D.G.face k).right) (u (D.G.face k).left) (-D.G.nrm k))

/-! ### Fluxes -/

theorem Faster.flux {s : Scheme} {G : Gas} {a b : St} {n : V2} (h : Faster s G a b n) (ha : Adm G a) (hb : Adm G b) : s.flux G a b n = G.eulerFlux a n := by
  cases s with
  | llf => exact absurd h id
  | vanLeer => exact C17_vanLeer ha hb n ((one_lt_div ha.c_pos).2 h.1) ((one_lt_div hb.c_pos).2 h.2)
  | ausm => exact C17_ausm ha hb n ((one_lt_div ha.c_pos).2 h.1) ((one_lt_div hb.c_pos).2 h.2)
  | ausmPlus => exact C17_ausmPlus ha hb n h.1 h.2
  | roe => exact C17_roe ha hb n h
  | hll => exact C17_hll ha hb n h
  | hllc => exact C17_hllc ha n h

theorem Faster.flux_right {s : Scheme} {G : Gas} (hg : 4 ≤ 3 * G.g) {a b : St} {n : V2} (hn : n 0 * n 0 + n 1 * n 1 = 1) (h : Faster s G b a (-n)) (ha : Adm G a) (hb : Adm G b) :
    s.flux G a b n = fun v => - G.eulerFlux b (-n) v := by
  funext v
  have := C16_conservative G a b n hg ha hb hn s v
  rw [h.flux hb ha] at this
  linarith

section
variable {D : Disc} {U : ℕ → Prop} {u w : ℕ → St}

theorem nrm_unit (h : D.G.Ok) {k : ℕ} (hk : k < D.G.nface) : D.G.nrm k 0 * D.G.nrm k 0 + D.G.nrm k 1 * D.G.nrm k 1 = 1 := by
  have hp := Disc.len_pos h hk
  unfold Geo.nrm
  refine Disc.fNrm_unit fun e => ?_
  unfold Geo.len at hp
  rw [e] at hp
  simp [fLen] at hp

/-- C98: the first-order inviscid residual and the time steps in the set are determined by the states in the set. -/
theorem C98_residual (h : D.G.Ok) (hg : 4 ≤ 3 * D.gas.g) (hv : D.viscous = false) (hb : D.BcOk) (hu : ∀ i, i < D.G.rows → Adm D.gas (u i)) (hw : ∀ i, i < D.G.rows → Adm D.gas (w i))
    (he : ∀ i, U i → u i = w i) (hlu : Leaves D U u) (hlw : Leaves D U w) (r : ℕ → St) :
    ∃ o o', D.residual1 u r = some o ∧ D.residual1 w r = some o' ∧ ∀ i, i < D.G.m.nelem → U i →
      o.res i = o'.res i ∧ D.timestep o.uL o.uR i = D.timestep o'.uL o'.uR i := by
  let R : (ℕ → St) → ℕ → St := fun u k => if k < D.G.m.nbface then D.bstate k (u (D.G.face k).left) else u (D.G.face k).right
  have hres : ∀ u, D.residual1 u r = some ⟨fun k => u (D.G.face k).left, R u, D.fluxes false u 0 (fun k => u (D.G.face k).left) (R u) (R u) r⟩ := fun u => by
    unfold Disc.residual1
    rw [if_pos hb]
  refine ⟨_, _, hres u, hres w, fun i hi hU => ⟨?_, ?_⟩⟩
  · dsimp only [Disc.fluxes]
    rw [assemble_eq, assemble_eq]
    congr 1
    refine sum_congr rfl fun k hk => ?_
    have hk : k < D.G.nface := mem_range.1 hk
    obtain ⟨k1, k2, k3, k4, k5⟩ := h.kind hk
    by_cases ht : (D.G.face k).left = i ∨ (D.G.face k).right = i
    · have hff : ∀ v, D.scheme.flux D.gas (u (D.G.face k).left) (R u k) (D.G.nrm k) v = D.scheme.flux D.gas (w (D.G.face k).left) (R w k) (D.G.nrm k) v := by
        by_cases hbd : k < D.G.m.nbface
        · have hl : (D.G.face k).left = i := ht.resolve_right fun e => by
            have := k4.2 (by rw [e]; exact hi)
            have := this.1
            omega
          simp only [R, if_pos hbd, hl, he i hU, implies_true]
        · have hRr := k5 (by omega)
          have hLr : (D.G.face k).left < D.G.rows := by unfold Geo.rows; omega
          have hun := nrm_unit h hk
          have hn : D.G.m.nbface ≤ k := by omega
          simp only [R, if_neg hbd]
          by_cases hUl : U (D.G.face k).left
          · by_cases hUr : U (D.G.face k).right
            · simp only [he _ hUl, he _ hUr, implies_true]
            · rw [((hlu k hk hn).1 hUl hUr).flux (hu _ hLr) (hu _ hRr), ((hlw k hk hn).1 hUl hUr).flux (hw _ hLr) (hw _ hRr), he _ hUl]
              exact fun _ => rfl
          · have hUr : U (D.G.face k).right := by
              rcases ht with e | e
              · exact absurd (by rw [e]; exact hU) hUl
              · rw [e]; exact hU
            rw [((hlu k hk hn).2 hUr hUl).flux_right hg hun (hu _ hLr) (hu _ hRr), ((hlw k hk hn).2 hUr hUl).flux_right hg hun (hw _ hLr) (hw _ hRr), he _ hUr]
            exact fun _ => rfl
      have hΦ : D.faceFlux false u 0 (fun k => u (D.G.face k).left) (R u) (R u) k = D.faceFlux false w 0 (fun k => w (D.G.face k).left) (R w) (R w) k := by
        funext v
        simp only [Disc.faceFlux, hv, hff v, Bool.false_eq_true, if_false]
      rw [hΦ]
    · have e1 : ¬ (faceAt D.G.s.faces k).left = i := fun e => ht (Or.inl e)
      have e2 : ¬ (faceAt D.G.s.faces k).right = i := fun e => ht (Or.inr e)
      simp [contrib, e1, e2]
  · unfold Disc.timestep
    rw [Disc.C51_integral h _ _ hi, Disc.C51_integral h _ _ hi]
    congr 1
    refine sum_congr rfl fun k hk => ?_
    obtain ⟨hk, ht⟩ := mem_filter.1 hk
    obtain ⟨k1, k2, k3, k4, k5⟩ := h.kind (mem_range.1 hk)
    unfold Disc.sideRad
    by_cases hl : (D.G.face k).left = i
    · simp only [hl, he i hU, if_true]
    · have hr : (D.G.face k).right = i := ht.resolve_left hl
      have hbd : ¬ k < D.G.m.nbface := fun hbd => by
        have := k4.2 (by rw [hr]; exact hi)
        have := this.1
        omega
      simp only [if_neg hl, R, if_neg hbd, hr, he i hU]

/-- C98, one update of the explicit solver. -/
theorem C98_update (h : D.G.Ok) (hg : 4 ≤ 3 * D.gas.g) (hv : D.viscous = false) (hb : D.BcOk) (hu : ∀ i, i < D.G.rows → Adm D.gas (u i)) (hw : ∀ i, i < D.G.rows → Adm D.gas (w i))
    (he : ∀ i, U i → u i = w i) (hlu : Leaves D U u) (hlw : Leaves D U w) (cfl : ℝ) {i : ℕ} (hU : U i) : (single D).upd cfl u i = (single D).upd cfl w i := by
  obtain ⟨o, o', ho, ho', hr⟩ := C98_residual h hg hv hb hu hw he hlu hlw 0
  rw [single_upd ho, single_upd ho']
  unfold euler
  split_ifs with hi
  · obtain ⟨h1, h2⟩ := hr i hi hU
    rw [h1, h2, he i hU]
  · exact he i hU

/-- C98, runs of the explicit solver: two runs that begin with the same states in the set, and in which the gas keeps leaving the set faster than sound, have the same states in the set
after any number of iterations. -/
theorem C98_run (h : D.G.Ok) (hg : 4 ≤ 3 * D.gas.g) (hv : D.viscous = false) (hb : D.BcOk) (cf : Conf) (he : ∀ i, U i → u i = w i) (n : ℕ) {s t : Mem (ℕ → St)}
    (hs : traj forwardEuler (single D) cf u n = some s) (ht : traj forwardEuler (single D) cf w n = some t)
    (hlu : ∀ j, j < n → ∀ x, traj forwardEuler (single D) cf u j = some x → Leaves D U x.u ∧ ∀ i, i < D.G.rows → Adm D.gas (x.u i))
    (hlw : ∀ j, j < n → ∀ x, traj forwardEuler (single D) cf w j = some x → Leaves D U x.u ∧ ∀ i, i < D.G.rows → Adm D.gas (x.u i)) :
    ∀ i, U i → s.u i = t.u i := by
  induction n generalizing s t with
  | zero =>
    cases hs; cases ht
    exact he
  | succ n ih =>
    obtain ⟨s0, hs0, hs1⟩ := Option.bind_eq_some_iff.1 hs
    obtain ⟨t0, ht0, ht1⟩ := Option.bind_eq_some_iff.1 ht
    have ih := ih hs0 ht0 (fun j hj => hlu j (by omega)) (fun j hj => hlw j (by omega))
    obtain ⟨l1, a1⟩ := hlu n (by omega) _ hs0
    obtain ⟨l2, a2⟩ := hlw n (by omega) _ ht0
    intro i hU
    have e : ∀ {x y : Mem (ℕ → St)}, body forwardEuler (single D) cf x = some y → y.u = (single D).upd cf.cflinit x.u := fun {x y} hxy => by
      unfold body at hxy
      dsimp only at hxy
      split at hxy
      · cases hxy
      · cases hxy; rfl
    rw [e hs1, e ht1]
    exact C98_update h hg hv hb a1 a2 ih l1 l2 _ hU

end

/-! ### Cases -/

theorem pair_leaves {s : FState} (hf : s.faces = [⟨0, 2, 0, 1⟩, ⟨1, 3, 1, 2⟩, ⟨1, 4, 2, 5⟩, ⟨1, 5, 5, 4⟩, ⟨0, 6, 4, 3⟩, ⟨0, 7, 3, 0⟩, ⟨0, 1, 1, 4⟩])
    {sch : Scheme} {a b : St} (hab : Faster sch air a b ![1, 0]) : Leaves ((airOut sch).disc pair s 0) (· = 0) (two a b) := by
  intro k hk hn
  have hk : k < s.faces.length := hk
  have hn : 6 ≤ k := hn
  rw [hf] at hk
  obtain rfl : k = 6 := by simp at hk; omega
  have hface : ((airOut sch).disc pair s 0).G.face 6 = ⟨0, 1, 1, 4⟩ := by show faceAt s.faces 6 = _; simp [faceAt, hf]
  have hnrm : ((airOut sch).disc pair s 0).G.nrm 6 = ![1, 0] := by
    unfold Geo.nrm
    rw [hface]
    norm_num [fNrm, fLen, pair, Settings.disc]
  rw [hface, hnrm]
  exact ⟨fun _ _ => hab, fun h _ => absurd h (by norm_num)⟩

/-- Air at Mach 4 flows into air at Mach 5 or 4 faster than sound in the sense of every scheme but LLF. -/
theorem faster_uS {sch : Scheme} (hsch : sch ≠ .llf) : Faster sch air uS4 uS5 ![1, 0] ∧ Faster sch air uS4 uS4 ![1, 0] := by
  have hsch : sch = .vanLeer ∨ sch = .ausm ∨ sch = .ausmPlus ∨ sch = .hll ∨ sch = .hllc ∨ sch = .roe := by cases sch <;> simp_all
  obtain ⟨h1, h2⟩ := roe_uS
  have h4 : (roeOf air uS4 uS4 ![1, 0]).vn = 4 ∧ (roeOf air uS4 uS4 ![1, 0]).c = 1 := by
    have h1 := roe_c_sq (n := ![1, 0]) adm_uS4 adm_uS4
    have h2 := roe_c_sq_arg (n := ![1, 0]) adm_uS4 adm_uS4
    have hR : (roeOf air uS4 uS4 ![1, 0]).R = 1 := by norm_num [roeOf, roeAvg, uS4]
    simp only at h2
    rw [h2, hR, c_uS4] at h1
    refine ⟨by rw [roe_vn, hR, vn_uS4]; norm_num, ?_⟩
    norm_num at h1
    rcases mul_self_eq_one_iff.1 h1 with h1 | h1
    · exact h1
    · have := roe_c_pos (n := ![1, 0]) adm_uS4 adm_uS4
      rw [h1] at this
      norm_num at this
  have k4 : critC air.g (cSide air uS4) (dot (Gas.vel uS4) (Gas.vel uS4)) < 4 := by
    rw [c_uS4, critC, Real.sqrt_lt' (by norm_num)]; simp [dot, Gas.vel, air, uS4]; norm_num
  have k5 : critC air.g (cSide air uS5) (dot (Gas.vel uS5) (Gas.vel uS5)) < 5 := by
    rw [c_uS5, critC, Real.sqrt_lt' (by norm_num)]; simp [dot, Gas.vel, air, uS5]; norm_num
  have f5 : Faster sch air uS4 uS5 ![1, 0] := by
    rcases hsch with rfl | rfl | rfl | rfl | rfl | rfl
    · simp only [Faster, vn_uS4, c_uS4, vn_uS5, c_uS5]; norm_num
    · simp only [Faster, vn_uS4, c_uS4, vn_uS5, c_uS5]; norm_num
    · simp only [Faster, vn_uS4, vn_uS5]; exact ⟨k4, k5⟩
    · simp only [Faster]; rw [sl_pos_iff, vn_uS4, c_uS4, h1]; exact ⟨by norm_num, by linarith⟩
    · simp only [Faster]; rw [sl_pos_iff, vn_uS4, c_uS4, h1]; exact ⟨by norm_num, by linarith⟩
    · simp only [Faster, h1]; norm_num [fixeps]; linarith
  have f4 : Faster sch air uS4 uS4 ![1, 0] := by
    rcases hsch with rfl | rfl | rfl | rfl | rfl | rfl
    · simp only [Faster, vn_uS4, c_uS4]; norm_num
    · simp only [Faster, vn_uS4, c_uS4]; norm_num
    · simp only [Faster, vn_uS4]; exact ⟨k4, k4⟩
    · simp only [Faster]; rw [sl_pos_iff, vn_uS4, c_uS4, h4.1, h4.2]; norm_num
    · simp only [Faster]; rw [sl_pos_iff, vn_uS4, c_uS4, h4.1, h4.2]; norm_num
    · simp only [Faster, h4.1, h4.2]; norm_num [fixeps]
  exact ⟨f5, f4⟩

/-- Two squares; air at Mach 4 in the first flows into the second. With every scheme but LLF replacing the state of the second, Mach 5 for Mach 4, leaves the update of the first as it is. -/
example (sch : Scheme) (hsch : sch ≠ .llf) : ∃ s, topological pair = .ok s ∧
    ∀ cfl, (single ((airOut sch).disc pair s 0)).upd cfl (two uS4 uS5) 0 = (single ((airOut sch).disc pair s 0)).upd cfl (two uS4 uS4) 0 := by
  obtain ⟨s, hs, hf⟩ := pair_topological
  obtain ⟨f5, f4⟩ := faster_uS hsch
  refine ⟨s, hs, fun cfl => C98_update (D := (airOut sch).disc pair s 0) (U := (· = 0)) ⟨pair_conforming, pair_nozero, hs⟩ (by norm_num [Settings.disc, airOut, air]) rfl (fun _ _ => rfl)
    (fun i _ => ?_) (fun i _ => ?_) (fun i hi => ?_) (pair_leaves hf f5) (pair_leaves hf f4) cfl rfl⟩
  · show Adm air (two uS4 uS5 i)
    unfold two; split_ifs
    · exact adm_uS4
    · exact adm_uS5
  · show Adm air (two uS4 uS4 i)
    unfold two; split_ifs <;> exact adm_uS4
  · have : i = 0 := hi
    rw [this]; rfl

/-- The full claim, for every flux scheme, fails: with LLF the second square, entered at Mach 4, acts on the first. -/
theorem C98_llf_refuted : ∃ s, topological pair = .ok s ∧ (∀ i, Adm air (two uS4 uS5 i)) ∧ (∀ i, Adm air (two uS4 uS4 i)) ∧ 1 < Gas.varsVn uS4 ![1, 0] / cSide air uS4 ∧
    1 < Gas.varsVn uS5 ![1, 0] / cSide air uS5 ∧
    (single ((airOut .llf).disc pair s 0)).upd 1 (two uS4 uS5) 0 ≠ (single ((airOut .llf).disc pair s 0)).upd 1 (two uS4 uS4) 0 := by
  obtain ⟨s, hs, hf⟩ := pair_topological
  refine ⟨s, hs, fun i => ?_, fun i => ?_, by rw [vn_uS4, c_uS4]; norm_num, by rw [vn_uS5, c_uS5]; norm_num, fun h => ?_⟩
  · unfold two; split_ifs
    · exact adm_uS4
    · exact adm_uS5
  · unfold two; split_ifs <;> exact adm_uS4
  · rw [pair_step hs hf .llf adm_uS4 adm_uS5, pair_step hs hf .llf adm_uS4 adm_uS4] at h
    have h0 := congrFun h 0
    simp only [Pi.sub_apply, Pi.smul_apply, smul_eq_mul, sub_right_inj, Scheme.flux, llf, eulerFlux_eq adm_uS4.rho', eulerFlux_eq adm_uS5.rho', vn_uS4, vn_uS5, c_uS4, c_uS5] at h0
    have q2 : uS4 2 = 0 := rfl
    norm_num [Gas.dirFlux, llfEig, Gas.vel, q2] at h0
    norm_num [uS4, uS5] at h0

end Par
end FVENS
